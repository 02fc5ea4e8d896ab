import Verif.Lemmas.AscentPath
import Verif.Props.DesignRegion

/-! # C84: a run of the optimiser is projected gradient ascent, or Adam, on the objective -/

namespace Angler

open Matrix Filter Topology

variable {Nx Ny : ℕ}

/-- Projected gradient ascent: from each density a step of `s` times the gradient on the design pixels, cut off at 0 and 1. -/
noncomputable def Spec.gdPath (F : Grid Nx Ny ℝ → ℝ) (design : Grid Nx Ny ℝ) (s : ℝ) (x : Grid Nx Ny ℝ) : ℕ → Grid Nx Ny ℝ
  | 0 => x
  | k + 1 => Spec.move design (Spec.gdPath F design s x k) fun i j => s * Spec.partials F (Spec.gdPath F design s x k) i j

/-- The densities `r 0, r 1, …` are those of Adam: each step follows the bias-corrected averages of all gradients so far. -/
def Spec.AdamPath (F : Grid Nx Ny ℝ → ℝ) (design : Grid Nx Ny ℝ) (s b1 b2 : ℝ) (r : ℕ → Grid Nx Ny ℝ) : Prop :=
  ∀ k, r (k + 1) = Spec.move design (r k) fun i j => s * Spec.adamStep b1 b2 (fun m => Spec.partials F (r m)) k i j

theorem box_gdPath (F : Grid Nx Ny ℝ → ℝ) (design : Grid Nx Ny ℝ) (s : ℝ) {x : Grid Nx Ny ℝ} (hx : Spec.Box x) (k : ℕ) : Spec.Box (Spec.gdPath F design s x k) := by
  induction k with
  | zero => exact hx
  | succ k ih => exact box_move ih _

namespace Spec.EzProblem
variable {o : Opt Nx Ny} {J : ObjFn Nx Ny} {args : List ObjArg}

theorem stepGD (h : Spec.EzProblem o J args) (env : Env) (he : env.Exact) {F : Grid Nx Ny ℝ → ℝ} (hF : Spec.IsObjective env o F) {o' : Opt Nx Ny} {x : Grid Nx Ny ℝ}
    (hx : Spec.Box x) (hs : StateAt o x o') (s : ℝ) :
    ∃ o'', Opt.stepGD env s o' = (.ok (), o'') ∧ StateAt o (Spec.move o.design_region x fun i j => s * Spec.partials F x i j) o'' ∧ o''.objfn_list = o'.objfn_list ++ [F x] := by
  obtain ⟨o1, o2, o3, g, h1, h2, h3, h4, h5⟩ := h.iteration env he hF hx hs
  obtain ⟨o'', hu, hst, hlog⟩ := h5 g s
  refine ⟨o'', ?_, ?_, hlog⟩
  · unfold Opt.stepGD
    rw [h1]
    simp only [pySeq]
    rw [h2]
    simp only
    rw [h3]
    exact hu
  · rw [move_congr (v := fun i j => s * Spec.partials F x i j) fun i j hd => by rw [h4 i j hd]] at hst
    exact hst

theorem run_GD (h : Spec.EzProblem o J args) (env : Env) (he : env.Exact) {F : Grid Nx Ny ℝ → ℝ} (hF : Spec.IsObjective env o F) {x : Grid Nx Ny ℝ} (hx : Spec.Box x) (s : ℝ)
    (n k : ℕ) (o' : Opt Nx Ny) (hs : StateAt o (Spec.gdPath F o.design_region s x k) o') :
    ∃ o'', Opt.run_GD env s n o' = (.ok (), o'') ∧ StateAt o (Spec.gdPath F o.design_region s x (k + n)) o'' ∧
      o''.objfn_list = o'.objfn_list ++ (List.range n).map fun m => F (Spec.gdPath F o.design_region s x (k + m)) := by
  induction n generalizing k o' with
  | zero => exact ⟨o', rfl, hs, by simp⟩
  | succ n ih =>
    obtain ⟨o1, h1, hs1, hl1⟩ := h.stepGD env he hF (box_gdPath F o.design_region s hx k) hs s
    obtain ⟨o2, h2, hs2, hl2⟩ := ih (k + 1) o1 hs1
    refine ⟨o2, ?_, ?_, ?_⟩
    · show pySeq (Opt.stepGD env s o') _ = _
      rw [h1]
      exact h2
    · rw [show k + (n + 1) = k + 1 + n by omega]
      exact hs2
    · rw [hl2, hl1, List.range_succ_eq_map, List.map_cons, List.map_map, List.append_assoc]
      congr 1
      rw [List.singleton_append, add_zero]
      congr 1
      refine List.map_congr_left fun m _ => ?_
      simp only [Function.comp]
      rw [show k + 1 + m = k + m.succ by omega]

end Spec.EzProblem

/-- **C84, gradient ascent.** Started with densities between 0 and 1 and the permittivity of the density, `run('gd')` with any number of steps and any step size visits the densities of projected
gradient ascent on the objective and records the objective of each of them. -/
theorem C84_gd (env : Env) (he : env.Exact) (o : Opt Nx Ny) (J : ObjFn Nx Ny) (args : List ObjArg) (h : Spec.EzProblem o J args) (F : Grid Nx Ny ℝ → ℝ) (hF : Spec.IsObjective env o F)
    (rho : Grid Nx Ny ℝ) (hbox : Spec.Box rho) (hrho : o.simulation.rho = some (some rho))
    (heps : o.simulation.eps_r = fun i j => ((rho2eps rho o.eps_m o.W o.eta o.beta i j : ℝ) : ℂ)) (n : ℕ) (s b1 b2 : ℝ) (calls : List Opt.LbfgsCall) (y : List ℝ) :
    ∃ o', Opt.run env "gd" n s b1 b2 calls y o = (.ok (), o') ∧ o'.simulation.rho = some (some (Spec.gdPath F o.design_region s rho n)) ∧
      o'.simulation.eps_r = (fun i j => ((rho2eps (Spec.gdPath F o.design_region s rho n) o.eps_m o.W o.eta o.beta i j : ℝ) : ℂ)) ∧
      o'.objfn_list = o.objfn_list ++ (List.range n).map fun k => F (Spec.gdPath F o.design_region s rho k) := by
  have hs : StateAt o rho { o with fields_current := false } :=
    ⟨⟨rfl, rfl, rfl, rfl, rfl, rfl, rfl, rfl, rfl, rfl, rfl, rfl, rfl, rfl⟩, h.valid, rfl, hrho, heps⟩
  obtain ⟨o', h1, h2, h3⟩ := h.run_GD env he hF hbox s n 0 _ hs
  simp only [zero_add] at h2 h3
  refine ⟨o', ?_, h2.rho, ?_, h3⟩
  · rw [run_gd hrho lower_gd]
    exact h1
  · rw [h2.eps, h2.same.W, h2.same.eps_m, h2.same.eta, h2.same.beta]

/-! ## Adam -/

/-- The moments and the density after `k` passes. -/
noncomputable def adamState (G : Grid Nx Ny ℝ → Grid Nx Ny ℝ) (design : Grid Nx Ny ℝ) (s b1 b2 : ℝ) (x : Grid Nx Ny ℝ) : ℕ → Opt.Moments Nx Ny × Grid Nx Ny ℝ
  | 0 => ((fun _ _ => 0, fun _ _ => 0), x)
  | k + 1 =>
    let st := adamState G design s b1 b2 x k
    match Opt.step_adam (G st.2) st.1 k b1 b2 with
    | .ok (d, mv) => (mv, Spec.move design st.2 fun i j => s * d i j)
    | .error _ => st

theorem adamState_spec (G : Grid Nx Ny ℝ → Grid Nx Ny ℝ) (design : Grid Nx Ny ℝ) (s : ℝ) {b1 b2 : ℝ} (h1 : 0 ≤ b1 ∧ b1 < 1) (h2 : 0 ≤ b2 ∧ b2 < 1) (x : Grid Nx Ny ℝ) (k : ℕ) :
    let st := adamState G design s b1 b2 x
    let g : ℕ → Grid Nx Ny ℝ := fun m => G (st m).2
    MomentsOf b1 b2 g k (st k).1 ∧ Opt.step_adam (g k) (st k).1 k b1 b2 = .ok (Spec.adamStep b1 b2 g k, (st (k + 1)).1) ∧
      (st (k + 1)).2 = Spec.move design (st k).2 fun i j => s * Spec.adamStep b1 b2 g k i j := by
  intro st g
  have key : ∀ k, MomentsOf b1 b2 g k (st k).1 → Opt.step_adam (g k) (st k).1 k b1 b2 = .ok (Spec.adamStep b1 b2 g k, (st (k + 1)).1) ∧
      (st (k + 1)).2 = (Spec.move design (st k).2 fun i j => s * Spec.adamStep b1 b2 g k i j) ∧ MomentsOf b1 b2 g (k + 1) (st (k + 1)).1 := by
    intro k hm
    obtain ⟨mv', hst, hm'⟩ := step_adam_spec h1 h2 g k (st k).1 hm
    have hnext : st (k + 1) = (mv', Spec.move design (st k).2 fun i j => s * Spec.adamStep b1 b2 g k i j) := by
      show (match Opt.step_adam (g k) (st k).1 k b1 b2 with
        | .ok (d, mv) => (mv, Spec.move design (st k).2 fun i j => s * d i j)
        | .error _ => st k) = _
      rw [hst]
    rw [hnext]
    exact ⟨hst, rfl, hm'⟩
  have hall : ∀ k, MomentsOf b1 b2 g k (st k).1 := by
    intro k
    induction k with
    | zero => exact fun i j => ⟨rfl, rfl⟩
    | succ k ih => exact (key k ih).2.2
  exact ⟨hall k, (key k (hall k)).1, (key k (hall k)).2.1⟩

namespace Spec.EzProblem
variable {o : Opt Nx Ny} {J : ObjFn Nx Ny} {args : List ObjArg}

/-- The gradient the code computes at a density. -/
theorem exists_gradient (h : Spec.EzProblem o J args) (env : Env) (he : env.Exact) {F : Grid Nx Ny ℝ → ℝ} (hF : Spec.IsObjective env o F) :
    ∃ G : Grid Nx Ny ℝ → Grid Nx Ny ℝ, ∀ x, Spec.Box x → (∀ i j, o.design_region i j = 1 → G x i j = Spec.partials F x i j) ∧
      ∀ o', StateAt o x o' → (Opt.compute_dJ env o').1 = .ok (G x) := by
  have hex : ∀ x, Spec.Box x → ∃ g, (∀ i j, o.design_region i j = 1 → g i j = Spec.partials F x i j) ∧ ∀ o', StateAt o x o' → (Opt.compute_dJ env o').1 = .ok g := by
    intro x hx
    have hs := h.stateAt_putRho x
    have hL := h.linear env hx hs
    obtain ⟨g, hg, -⟩ := gradient_path_Ez env he _ J args x hL h.ezArgs h.len
    refine ⟨g, (h.gradient env he hF hx hs hg).1, fun o' hs' => ?_⟩
    rw [compute_dJ_same hL (h.linear env hx hs') h.ezArgs ?_]
    · exact hg
    · exact ⟨hs'.same.objective, hs'.same.W, hs'.same.design, hs'.same.eps_m, hs'.same.eta, hs'.same.beta, hs'.same.shift, hs'.same.omega, hs'.same.L0, hs'.same.NPML, hs'.same.pol,
        hs'.same.src, hs'.same.xrange, hs'.same.yrange⟩
  classical
  refine ⟨fun x => if hx : Spec.Box x then (hex x hx).choose else x, fun x hx => ?_⟩
  simp only [dif_pos hx]
  exact (hex x hx).choose_spec

theorem stepADAM (h : Spec.EzProblem o J args) (env : Env) {F : Grid Nx Ny ℝ → ℝ} (hF : Spec.IsObjective env o F) {G : Grid Nx Ny ℝ → Grid Nx Ny ℝ}
    (hG : ∀ x, Spec.Box x → ∀ o', StateAt o x o' → (Opt.compute_dJ env o').1 = .ok (G x))
    {o' : Opt Nx Ny} {x : Grid Nx Ny ℝ} (hx : Spec.Box x) (hs : StateAt o x o') (s b1 b2 : ℝ) (k : ℕ) (mv mv' : Opt.Moments Nx Ny) (d : Grid Nx Ny ℝ)
    (h0 : k = 0 → mv = (fun _ _ => 0, fun _ _ => 0)) (hstep : Opt.step_adam (G x) mv k b1 b2 = .ok (d, mv')) :
    ∃ o'', Opt.stepADAM env s b1 b2 k mv o' = (.ok mv', o'') ∧ StateAt o (Spec.move o.design_region x fun i j => s * d i j) o'' ∧ o''.objfn_list = o'.objfn_list ++ [F x] := by
  have hL := h.linear env hx hs
  obtain ⟨o1, o2, o3, g, h1, h2, h3, h4, h5⟩ := iteration_Ez env hL h.ezArgs h.len (hs.same.shift.trans h.shift)
  have hFo : F x = linObj env o' J args h.len x := by rw [h.objective_eq env hF, hs.same.linObj]
  rw [← hFo] at h1 h2
  have hg : g = G x := Except.ok.inj (h4.symm.trans (hG x hx o' hs))
  subst hg
  obtain ⟨o'', hu, hsame, hv, hst, hlog, hrho, heps⟩ := h5 d s
  rw [← hFo] at hlog
  rw [hs.same.design, clip_eq_move h.mask hx] at hrho heps
  refine ⟨o'', ?_, ⟨hs.same.trans hsame, hv, hst, hrho, heps⟩, hlog⟩
  have hmv : (if k = 0 then ((fun _ _ => 0, fun _ _ => 0) : Opt.Moments Nx Ny) else mv) = mv := by
    split_ifs with hk
    · exact (h0 hk).symm
    · rfl
  unfold Opt.stepADAM
  rw [h1]
  simp only [pySeq]
  rw [h2]
  simp only
  rw [h3]
  simp only
  rw [hmv, hstep]
  simp only
  rw [hu]

theorem loopADAM (h : Spec.EzProblem o J args) (env : Env) {F : Grid Nx Ny ℝ → ℝ} (hF : Spec.IsObjective env o F) {G : Grid Nx Ny ℝ → Grid Nx Ny ℝ}
    (hG : ∀ x, Spec.Box x → ∀ o', StateAt o x o' → (Opt.compute_dJ env o').1 = .ok (G x))
    (s : ℝ) {b1 b2 : ℝ} (hb1 : 0 ≤ b1 ∧ b1 < 1) (hb2 : 0 ≤ b2 ∧ b2 < 1) (x : Grid Nx Ny ℝ) (hbox : ∀ k, Spec.Box (adamState G o.design_region s b1 b2 x k).2) (n k : ℕ) (o' : Opt Nx Ny)
    (hs : StateAt o (adamState G o.design_region s b1 b2 x k).2 o') :
    ∃ o'', Opt.loopADAM env s b1 b2 n k (adamState G o.design_region s b1 b2 x k).1 o' = (.ok (), o'') ∧ StateAt o (adamState G o.design_region s b1 b2 x (k + n)).2 o'' ∧
      o''.objfn_list = o'.objfn_list ++ (List.range n).map fun m => F (adamState G o.design_region s b1 b2 x (k + m)).2 := by
  induction n generalizing k o' with
  | zero => exact ⟨o', rfl, hs, by simp⟩
  | succ n ih =>
    obtain ⟨-, hst, hnext⟩ := adamState_spec G o.design_region s hb1 hb2 x k
    obtain ⟨o1, h1, hs1, hl1⟩ := h.stepADAM env hF hG (hbox k) hs s b1 b2 k _ _ _ (fun hk => by rw [hk]; rfl) hst
    rw [← hnext] at hs1
    obtain ⟨o2, h2, hs2, hl2⟩ := ih (k + 1) o1 hs1
    refine ⟨o2, ?_, ?_, ?_⟩
    · show pySeq (Opt.stepADAM env s b1 b2 k _ o') _ = _
      rw [h1]
      exact h2
    · rw [show k + (n + 1) = k + 1 + n by omega]
      exact hs2
    · rw [hl2, hl1, List.range_succ_eq_map, List.map_cons, List.map_map, List.append_assoc]
      congr 1
      rw [List.singleton_append, add_zero]
      congr 1
      refine List.map_congr_left fun m _ => ?_
      simp only [Function.comp]
      rw [show k + 1 + m = k + m.succ by omega]

end Spec.EzProblem

/-- **C84, Adam.** Under the same conditions and for decay rates in `[0, 1)` there is one sequence of densities, that of Adam on the objective, such that `run('adam')` with any number `n` of steps ends
at its `n`-th member and records the objective of the members before it. -/
theorem C84_adam (env : Env) (he : env.Exact) (o : Opt Nx Ny) (J : ObjFn Nx Ny) (args : List ObjArg) (h : Spec.EzProblem o J args) (F : Grid Nx Ny ℝ → ℝ) (hF : Spec.IsObjective env o F)
    (rho : Grid Nx Ny ℝ) (hbox : Spec.Box rho) (hrho : o.simulation.rho = some (some rho))
    (heps : o.simulation.eps_r = fun i j => ((rho2eps rho o.eps_m o.W o.eta o.beta i j : ℝ) : ℂ)) (s b1 b2 : ℝ) (hb1 : 0 ≤ b1 ∧ b1 < 1) (hb2 : 0 ≤ b2 ∧ b2 < 1)
    (calls : List Opt.LbfgsCall) (y : List ℝ) :
    ∃ r : ℕ → Grid Nx Ny ℝ, r 0 = rho ∧ Spec.AdamPath F o.design_region s b1 b2 r ∧ (∀ k, Spec.Box (r k)) ∧
      ∀ n, ∃ o', Opt.run env "adam" n s b1 b2 calls y o = (.ok (), o') ∧ o'.simulation.rho = some (some (r n)) ∧
        o'.simulation.eps_r = (fun i j => ((rho2eps (r n) o.eps_m o.W o.eta o.beta i j : ℝ) : ℂ)) ∧ o'.objfn_list = o.objfn_list ++ (List.range n).map fun k => F (r k) := by
  obtain ⟨G, hG⟩ := h.exists_gradient env he hF
  let st := adamState G o.design_region s b1 b2 rho
  have hspec := adamState_spec G o.design_region s hb1 hb2 rho
  have hb : ∀ k, Spec.Box (st k).2 := by
    intro k
    induction k with
    | zero => exact hbox
    | succ k ih =>
      rw [show (st (k + 1)).2 = _ from (hspec k).2.2]
      exact box_move ih _
  refine ⟨fun k => (st k).2, rfl, fun k => ?_, hb, fun n => ?_⟩
  · beta_reduce
    rw [show (st (k + 1)).2 = _ from (hspec k).2.2]
    refine move_congr fun i j hd => ?_
    have e : ∀ m, G (st m).2 i j = Spec.partials F (st m).2 i j := fun m => (hG _ (hb m)).1 i j hd
    have e1 : Spec.average b1 (fun m => G (st m).2 i j) k = Spec.average b1 (fun m => Spec.partials F (st m).2 i j) k := average_congr fun m _ => e m
    have e2 : Spec.average b2 (fun m => G (st m).2 i j ^ 2) k = Spec.average b2 (fun m => Spec.partials F (st m).2 i j ^ 2) k := average_congr fun m _ => by rw [e m]
    show s * (Spec.average b1 (fun m => G (st m).2 i j) k / (√(Spec.average b2 (fun m => G (st m).2 i j ^ 2) k) + 1e-8)) = _
    rw [e1, e2]
    rfl
  · have hs : StateAt o rho { o with fields_current := false } :=
      ⟨⟨rfl, rfl, rfl, rfl, rfl, rfl, rfl, rfl, rfl, rfl, rfl, rfl, rfl, rfl⟩, h.valid, rfl, hrho, heps⟩
    obtain ⟨o', h1, h2, h3⟩ := h.loopADAM env hF (fun x hx => (hG x hx).2) s hb1 hb2 rho hb n 0 _ hs
    simp only [zero_add] at h2 h3
    refine ⟨o', ?_, h2.rho, ?_, h3⟩
    · rw [run_adam hrho lower_adam]
      exact h1
    · rw [h2.eps, h2.same.W, h2.same.eps_m, h2.same.eta, h2.same.beta]

end Angler
