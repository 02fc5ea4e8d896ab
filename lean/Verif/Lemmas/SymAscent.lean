import Verif.Props.AscentStart
import Verif.Props.Mirror
import Verif.Props.Translate
import Verif.Props.Transpose

/-! # Optimisation runs on images of a problem -/

namespace Angler

open Matrix Filter Topology

variable {Nx Ny Mx My : ℕ} {α : Type*}

/-! ## Specification -/

/-- The array of a triple of Ez-polarisation fields `(Hx, Hy, Ez)` that an objective function asks for by name. -/
def Spec.named (t : Triple Nx Ny) : Comp → Grid Nx Ny ℂ
  | .Hx => t.1
  | .Hy => t.2.1
  | _ => t.2.2

/-- The objective function `J'` values the image `G t` of any fields `t` as `J` values `t` itself. -/
def Spec.SameValue (G : Triple Nx Ny → Triple Mx My) (J : ObjFn Nx Ny) (args : List ObjArg) (J' : ObjFn Mx My) (args' : List ObjArg) : Prop :=
  ∀ (hl : args.length = J.arity) (hl' : args'.length = J'.arity) (t : Triple Nx Ny),
    J'.eval (fun k => Spec.named (G t) (args'.get (k.cast hl'.symm)).component) = J.eval fun k => Spec.named t (args.get (k.cast hl.symm)).component

/-- The optimisation `o'` has the design region, filter and projection of `o`, with arrays mapped by `T`. -/
structure Spec.ImageOpt (T : Grid Nx Ny ℝ → Grid Mx My ℝ) (o : Opt Nx Ny) (o' : Opt Mx My) : Prop where
  design : o'.design_region = T o.design_region
  filter : ∀ x, rho2rhot (T x) o'.W = T (rho2rhot x o.W)
  eps_m : o'.eps_m = o.eps_m
  eta : o'.eta = o.eta
  beta : o'.beta = o.beta

/-- What a run on `o` and a run on its image have in common: both finish; the final density of the second is the image of that of the first; they record the same `n` values of the objective. -/
def Spec.SameRun (T : Grid Nx Ny ℝ → Grid Mx My ℝ) (n : ℕ) (o : Opt Nx Ny) (o' : Opt Mx My) (r : Except PyErr Unit × Opt Nx Ny) (r' : Except PyErr Unit × Opt Mx My) : Prop :=
  r.1 = .ok () ∧ r'.1 = .ok () ∧ (∃ x, r.2.simulation.rho = some (some x) ∧ r'.2.simulation.rho = some (some (T x))) ∧
    ∃ l : List ℝ, l.length = n ∧ r.2.objfn_list = o.objfn_list ++ l ∧ r'.2.objfn_list = o'.objfn_list ++ l

/-! ## Functions of images -/

section
variable (σ : Fin Nx × Fin Ny ≃ Fin Mx × Fin My)

theorem relabel_bump (x : Grid Nx Ny ℝ) (c : Fin Nx × Fin Ny) (t : ℝ) : relabel σ (Spec.bump x c.1 c.2 t) = Spec.bump (relabel σ x) (σ c).1 (σ c).2 t := by
  funext i j
  simp only [relabel, Spec.bump]
  congr 1
  refine if_congr ?_ rfl rfl
  rw [← Prod.ext_iff, ← Prod.mk_inj, Prod.mk.eta, Equiv.symm_apply_eq]

theorem relabel_move (design x u : Grid Nx Ny ℝ) : relabel σ (Spec.move design x u) = Spec.move (relabel σ design) (relabel σ x) (relabel σ u) := rfl

theorem relabel_box {x : Grid Nx Ny ℝ} (h : Spec.Box x) : Spec.Box (relabel σ x) := fun _ _ => h _ _

/-- Two functions of densities that agree on images near the densities of a box have the same derivatives there. -/
theorem relabel_partials {F : Grid Nx Ny ℝ → ℝ} {F' : Grid Mx My ℝ → ℝ} {x : Grid Nx Ny ℝ}
    (h : ∀ i j, ∀ᶠ t in 𝓝 (0 : ℝ), F' (relabel σ (Spec.bump x i j t)) = F (Spec.bump x i j t)) : Spec.partials F' (relabel σ x) = relabel σ (Spec.partials F x) := by
  funext i j
  obtain ⟨c, hc⟩ := σ.surjective (i, j)
  have e : relabel σ (Spec.partials F x) i j = Spec.partials F x c.1 c.2 := by
    simp only [relabel, ← hc, Equiv.symm_apply_apply]
  rw [e]
  unfold Spec.partials
  refine Filter.EventuallyEq.deriv_eq ?_
  filter_upwards [h c.1 c.2] with t ht
  rw [← ht, relabel_bump, hc]

theorem relabel_gdPath {F : Grid Nx Ny ℝ → ℝ} {F' : Grid Mx My ℝ → ℝ} (h : ∀ x, Spec.Box x → Spec.partials F' (relabel σ x) = relabel σ (Spec.partials F x))
    (design : Grid Nx Ny ℝ) (s : ℝ) {x : Grid Nx Ny ℝ} (hx : Spec.Box x) (k : ℕ) :
    Spec.gdPath F' (relabel σ design) s (relabel σ x) k = relabel σ (Spec.gdPath F design s x k) := by
  induction k with
  | zero => rfl
  | succ k ih =>
    show Spec.move _ (Spec.gdPath F' (relabel σ design) s (relabel σ x) k) _ = relabel σ (Spec.move _ _ _)
    rw [relabel_move, ih, h _ (box_gdPath F design s hx k)]
    rfl

theorem relabel_AdamPath {F : Grid Nx Ny ℝ → ℝ} {F' : Grid Mx My ℝ → ℝ} (h : ∀ x, Spec.Box x → Spec.partials F' (relabel σ x) = relabel σ (Spec.partials F x))
    {design : Grid Nx Ny ℝ} {s b1 b2 : ℝ} {r : ℕ → Grid Nx Ny ℝ} {r' : ℕ → Grid Mx My ℝ} (hr : Spec.AdamPath F design s b1 b2 r) (hr' : Spec.AdamPath F' (relabel σ design) s b1 b2 r')
    (hb : ∀ k, Spec.Box (r k)) (h0 : r' 0 = relabel σ (r 0)) (k : ℕ) : r' k = relabel σ (r k) := by
  induction k using Nat.strong_induction_on with
  | _ k ih =>
    cases k with
    | zero => exact h0
    | succ k =>
      rw [hr' k, hr k, relabel_move, ih k (Nat.lt_succ_self k)]
      congr 1
      funext i j
      have e : ∀ m ∈ Finset.range (k + 1), Spec.partials F' (r' m) i j = Spec.partials F (r m) (σ.symm (i, j)).1 (σ.symm (i, j)).2 := by
        intro m hm
        rw [ih m (by rw [Finset.mem_range] at hm; omega), h _ (hb m)]
        rfl
      have e1 : Spec.average b1 (fun m => Spec.partials F' (r' m) i j) k = Spec.average b1 (fun m => Spec.partials F (r m) (σ.symm (i, j)).1 (σ.symm (i, j)).2) k :=
        Finset.sum_congr rfl fun m hm => by beta_reduce; rw [e m hm]
      have e2 : Spec.average b2 (fun m => Spec.partials F' (r' m) i j ^ 2) k = Spec.average b2 (fun m => Spec.partials F (r m) (σ.symm (i, j)).1 (σ.symm (i, j)).2 ^ 2) k :=
        Finset.sum_congr rfl fun m hm => by beta_reduce; rw [e m hm]
      show s * (Spec.average b1 (fun m => Spec.partials F' (r' m) i j) k / (√(Spec.average b2 (fun m => Spec.partials F' (r' m) i j ^ 2) k) + 1e-8)) = _
      rw [e1, e2]
      rfl
end

/-! ## The objective -/

theorem relabel_rho2eps {σ : Fin Nx × Fin Ny ≃ Fin Mx × Fin My} {o : Opt Nx Ny} {o' : Opt Mx My} (h : Spec.ImageOpt (relabel σ) o o') (x : Grid Nx Ny ℝ) :
    rho2eps (relabel σ x) o'.eps_m o'.W o'.eta o'.beta = relabel σ (rho2eps x o.eps_m o.W o.eta o.beta) := by
  funext i j
  simp only [rho2eps, h.filter, h.eps_m, h.eta, h.beta]
  rfl

/-- Near a solvable device, along a change of one pixel, all devices are solvable. -/
theorem eventually_det (o : Opt Nx Ny) (hp : o.simulation.pol = .Ez) (hb : o.beta ≠ 0) (x : Grid Nx Ny ℝ) (hdet : (Spec.simAt o x).A.det ≠ 0) (i : Fin Nx) (j : Fin Ny) :
    ∀ᶠ t in 𝓝 (0 : ℝ), (Spec.simAt o (Spec.bump x i j t)).A.det ≠ 0 := by
  have hA : ∀ t, (Spec.simAt o (Spec.bump x i j t)).A = (construct_A o.simulation.omega o.simulation.xrange o.simulation.yrange
      (fun p q => ((rho2eps (Spec.bump x i j t) o.eps_m o.W o.eta o.beta p q : ℝ) : ℂ)) o.simulation.NPML .Ez o.simulation.L0).1 := by
    intro t
    rw [← hp]; rfl
  have hder := fun k l => hasDerivAt_construct_A_Ez o.simulation.omega o.simulation.xrange o.simulation.yrange o.simulation.NPML o.simulation.L0
    (eps := fun t p q => ((rho2eps (Spec.bump x i j t) o.eps_m o.W o.eta o.beta p q : ℝ) : ℂ))
    (fun p q => hasDerivAt_rho2eps_path (hasDerivAt_bump x i j) o.eps_m o.W o.eta o.beta hb p q) k l
  simp only [← hA] at hder
  have hcont : ContinuousAt (fun t => (Spec.simAt o (Spec.bump x i j t)).A) 0 :=
    continuousAt_pi.2 fun i => continuousAt_pi.2 fun j => (hder i j).continuousAt
  exact (continuousAt_matrix_det hcont).eventually_ne (by rw [bump_zero]; exact hdet)

theorem linField_named (s : Sim Nx Ny) (hp : s.pol = .Ez) (eps : Grid Nx Ny ℂ) (X : Vec (Nx * Ny) ℂ) (c : Comp) : linField s X c = Spec.named (s.in_plane false eps X) c := by
  have e : s.in_plane false eps X = (unflatten ((-1 / Complex.I / (s.omega : ℂ) / ((MU_0 * s.L0 : ℝ) : ℂ)) • (s.derivs.Dyb *ᵥ X)),
      unflatten ((1 / Complex.I / (s.omega : ℂ) / ((MU_0 * s.L0 : ℝ) : ℂ)) • (s.derivs.Dxb *ᵥ X)), unflatten X) := by
    unfold Sim.in_plane
    rw [hp]
  rw [e]
  cases c <;> rfl

/-- Two optimisations whose devices have, density by density, fields that are images of each other. -/
structure ImageRun (env : Env) (σ : Fin Nx × Fin Ny ≃ Fin Mx × Fin My) (G : Triple Nx Ny → Triple Mx My) (o : Opt Nx Ny) (o' : Opt Mx My) : Prop where
  image : Spec.ImageOpt (relabel σ) o o'
  fields : ∀ x, (Spec.simAt o x).A.det ≠ 0 → ((Spec.simAt o' (relabel σ x)).solve_fields env false false).1 = ((Spec.simAt o x).solve_fields env false false).1.map G

theorem solve_fields_triple (env : Env) (s : Sim Nx Ny) : (s.solve_fields env false false).1 = .ok (s.in_plane false s.eps_r (solver_direct env s.A s.rhs)) := rfl

variable {env : Env} {σ : Fin Nx × Fin Ny ≃ Fin Mx × Fin My} {G : Triple Nx Ny → Triple Mx My} {o : Opt Nx Ny} {o' : Opt Mx My} {J : ObjFn Nx Ny} {args : List ObjArg}
  {J' : ObjFn Mx My} {args' : List ObjArg}

theorem ImageRun.objective (hI : ImageRun env σ G o o') (h : Spec.EzProblem o J args) (h' : Spec.EzProblem o' J' args') (hJ : Spec.SameValue G J args J' args') (x : Grid Nx Ny ℝ)
    (hdet : (Spec.simAt o x).A.det ≠ 0) : linObj env o' J' args' h'.len (relabel σ x) = linObj env o J args h.len x := by
  have e := hI.fields x hdet
  rw [solve_fields_triple, solve_fields_triple] at e
  have e := Except.ok.inj e
  unfold linObj
  simp only [linField_named (Spec.simAt o' (relabel σ x)) h'.pol (Spec.simAt o' (relabel σ x)).eps_r, linField_named (Spec.simAt o x) h.pol (Spec.simAt o x).eps_r]
  rw [e]
  exact hJ h.len h'.len _

theorem ImageRun.partials (hI : ImageRun env σ G o o') (h : Spec.EzProblem o J args) (h' : Spec.EzProblem o' J' args') (hJ : Spec.SameValue G J args J' args') (x : Grid Nx Ny ℝ)
    (hx : Spec.Box x) : Spec.partials (linObj env o' J' args' h'.len) (relabel σ x) = relabel σ (Spec.partials (linObj env o J args h.len) x) := by
  refine relabel_partials σ fun i j => ?_
  filter_upwards [eventually_det o h.pol h.beta x (h.solvable x hx) i j] with t ht
  exact hI.objective h h' hJ _ ht

theorem ImageRun.heps (hI : ImageRun env σ G o o') {rho : Grid Nx Ny ℝ} (he : o'.simulation.eps_r = relabel σ o.simulation.eps_r)
    (heps : o.simulation.eps_r = fun i j => ((rho2eps rho o.eps_m o.W o.eta o.beta i j : ℝ) : ℂ)) :
    o'.simulation.eps_r = fun i j => ((rho2eps (relabel σ rho) o'.eps_m o'.W o'.eta o'.beta i j : ℝ) : ℂ) := by
  rw [he, relabel_rho2eps hI.image, heps]
  rfl

theorem ImageRun.run (he : env.Exact) (hI : ImageRun env σ G o o') (h : Spec.EzProblem o J args) (h' : Spec.EzProblem o' J' args') (hJ : Spec.SameValue G J args J' args')
    (heps' : o'.simulation.eps_r = relabel σ o.simulation.eps_r) (rho : Grid Nx Ny ℝ) (hbox : Spec.Box rho) (hrho : o.simulation.rho = some (some rho))
    (hrho' : o'.simulation.rho = some (some (relabel σ rho))) (heps : o.simulation.eps_r = fun i j => ((rho2eps rho o.eps_m o.W o.eta o.beta i j : ℝ) : ℂ))
    (n : ℕ) (s b1 b2 : ℝ) (calls : List Opt.LbfgsCall) (y y' : List ℝ) :
    Spec.SameRun (relabel σ) n o o' (Opt.run env "gd" n s b1 b2 calls y o) (Opt.run env "gd" n s b1 b2 calls y' o') ∧
    (0 ≤ b1 ∧ b1 < 1 → 0 ≤ b2 ∧ b2 < 1 → Spec.SameRun (relabel σ) n o o' (Opt.run env "adam" n s b1 b2 calls y o) (Opt.run env "adam" n s b1 b2 calls y' o')) := by
  have hF := h.isObjective env
  have hF' := h'.isObjective env
  have hpart := fun x hx => hI.partials h h' hJ x hx
  have hval : ∀ x, Spec.Box x → linObj env o' J' args' h'.len (relabel σ x) = linObj env o J args h.len x := fun x hx => hI.objective h h' hJ x (h.solvable x hx)
  have he' := hI.heps heps' heps
  constructor
  · obtain ⟨p, hp, hp1, -, hp2⟩ := C84_gd env he o J args h _ hF rho hbox hrho heps n s b1 b2 calls y
    obtain ⟨q, hq, hq1, -, hq2⟩ := C84_gd env he o' J' args' h' _ hF' (relabel σ rho) (relabel_box σ hbox) hrho' he' n s b1 b2 calls y'
    rw [hp, hq]
    rw [hI.image.design] at hq1 hq2
    simp only [relabel_gdPath σ hpart o.design_region s hbox] at hq1 hq2
    refine ⟨rfl, rfl, ⟨_, hp1, hq1⟩, _, by simp, hp2, ?_⟩
    rw [hq2]
    congr 1
    exact List.map_congr_left fun k _ => hval _ (box_gdPath _ _ _ hbox k)
  · intro hb1 hb2
    obtain ⟨r, hr0, hr, hrb, hrun⟩ := C84_adam env he o J args h _ hF rho hbox hrho heps s b1 b2 hb1 hb2 calls y
    obtain ⟨r', hr0', hr', -, hrun'⟩ := C84_adam env he o' J' args' h' _ hF' (relabel σ rho) (relabel_box σ hbox) hrho' he' s b1 b2 hb1 hb2 calls y'
    obtain ⟨p, hp, hp1, -, hp2⟩ := hrun n
    obtain ⟨q, hq, hq1, -, hq2⟩ := hrun' n
    rw [hp, hq]
    rw [hI.image.design] at hr'
    have e := relabel_AdamPath σ hpart hr hr' hrb (by rw [hr0', hr0])
    simp only [e] at hq1 hq2
    refine ⟨rfl, rfl, ⟨_, hp1, hq1⟩, _, by simp, hp2, ?_⟩
    rw [hq2]
    congr 1
    exact List.map_congr_left fun k _ => hval _ (hrb k)

end Angler
