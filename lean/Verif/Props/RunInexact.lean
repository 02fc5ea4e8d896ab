import Verif.Props.AscentConverge
import Verif.Props.CheckInexact

/-! # C120: whole optimisations with inexact linear solvers -/

namespace Angler

open Matrix Filter Topology

variable {Nx Ny : ℕ}

/-! ## Limits -/

/-- Solutions of better and better solvers of converging systems converge. -/
theorem solver_tendsto_var {env : ℕ → Env} (h : ∀ k : ℕ, (env k).Within (1 / ((k : ℝ) + 1))) {n : ℕ} {A : ℕ → Mat n ℂ} {A0 : Mat n ℂ} (hA0 : A0.det ≠ 0)
    (hAt : Tendsto A atTop (𝓝 A0)) {b : ℕ → Vec n ℂ} {b0 : Vec n ℂ} (hb : Tendsto b atTop (𝓝 b0)) {env0 : Env} (he : env0.Exact) :
    Tendsto (fun k => solver_direct (env k) (A k) (b k)) atTop (𝓝 (solver_direct env0 A0 b0)) := by
  have hA : ∀ᶠ k in atTop, (A k).det ≠ 0 := (((continuous_id.matrix_det).tendsto A0).comp hAt).eventually_ne hA0
  have h1 : Tendsto (fun k => A k *ᵥ solver_direct (env k) (A k) (b k)) atTop (𝓝 b0) := by
    have hz : Tendsto (fun k => A k *ᵥ solver_direct (env k) (A k) (b k) - b k) atTop (𝓝 0) := by
      refine squeeze_zero_norm' (hA.mono fun k hk => within_direct (h k) (A k) (b k) hk) ?_
      have := (tendsto_one_div_add_atTop_nhds_zero_nat (𝕜 := ℝ)).mul hb.norm
      rwa [zero_mul] at this
    have := hz.add hb
    simpa using this
  have hinv : Tendsto (fun k => (A k)⁻¹) atTop (𝓝 A0⁻¹) :=
    (_root_.continuousAt_matrix_inv A0 (by
      rw [Ring.inverse_eq_inv']
      exact continuousAt_inv₀ hA0)).tendsto.comp hAt
  have hc : Continuous fun q : Mat n ℂ × Vec n ℂ => q.1 *ᵥ q.2 := Continuous.matrix_mulVec continuous_fst continuous_snd
  have h2 := (hc.tendsto (A0⁻¹, b0)).comp (hinv.prodMk_nhds h1)
  have h3 : solver_direct env0 A0 b0 = A0⁻¹ *ᵥ b0 :=
    solver_direct_unique he hA0 (by rw [Matrix.mulVec_mulVec, Matrix.mul_nonsing_inv _ (isUnit_iff_ne_zero.2 hA0), Matrix.one_mulVec])
  rw [h3]
  refine h2.congr' (hA.mono fun k hk => ?_)
  simp only [Function.comp]
  rw [Matrix.mulVec_mulVec, Matrix.nonsing_inv_mul _ (isUnit_iff_ne_zero.2 hk), Matrix.one_mulVec]

theorem continuous_tanh_real : Continuous Real.tanh := by
  have : Real.tanh = fun x => Real.sinh x / Real.cosh x := funext Real.tanh_eq_sinh_div_cosh
  rw [this]
  exact Real.continuous_sinh.div Real.continuous_cosh fun x => (Real.cosh_pos x).ne'

theorem rho2rhot_continuous (W : Mat (Nx * Ny) ℝ) (k : Fin (Nx * Ny)) : Continuous fun x : Grid Nx Ny ℝ => flatten (rho2rhot x W) k := by
  show Continuous fun x : Grid Nx Ny ℝ => ∑ m, W _ m * flatten x m
  exact continuous_finsetSum _ fun m _ => continuous_const.mul ((continuous_apply m.modNat).comp (continuous_apply m.divNat))

theorem rho2eps_continuous (eps_m : ℝ) (W : Mat (Nx * Ny) ℝ) (eta beta : ℝ) (i : Fin Nx) (j : Fin Ny) : Continuous fun x : Grid Nx Ny ℝ => rho2eps x eps_m W eta beta i j := by
  have h1 : Continuous fun x : Grid Nx Ny ℝ => rho2rhot x W i j := by
    show Continuous fun x : Grid Nx Ny ℝ => ∑ m, W _ m * flatten x m
    exact continuous_finsetSum _ fun m _ => continuous_const.mul ((continuous_apply m.modNat).comp (continuous_apply m.divNat))
  unfold rho2eps rhob2eps rhot2rhob
  exact continuous_const.add (((continuous_const.add (continuous_tanh_real.comp (continuous_const.mul (h1.sub continuous_const)))).div_const _).mul continuous_const)

theorem projMat_continuous (o : Opt Nx Ny) (k : Fin (Nx * Ny)) : Continuous fun x : Grid Nx Ny ℝ => Opt.projMat o x k := by
  unfold Opt.projMat drhob_drhot
  exact (continuous_const.sub (continuous_const.mul ((continuous_tanh_real.comp (continuous_const.mul ((rho2rhot_continuous o.W k).sub continuous_const))).pow 2))).div_const _

theorem simAt_A_continuous (o : Opt Nx Ny) (hp : o.simulation.pol = .Ez) : Continuous fun x : Grid Nx Ny ℝ => (Spec.simAt o x).A := by
  have h1 : ∀ x : Grid Nx Ny ℝ, (Spec.simAt o x).A = (construct_A o.simulation.omega o.simulation.xrange o.simulation.yrange (fun _ _ => 0) o.simulation.NPML .Ez o.simulation.L0).1 +
      spdiag fun k => (o.simulation.omega : ℂ) ^ 2 * ((EPSILON_0 * o.simulation.L0 : ℝ) : ℂ) * flatten (fun i j => ((rho2eps x o.eps_m o.W o.eta o.beta i j : ℝ) : ℂ)) k := by
    intro x
    rw [← construct_A_Ez_split]
    show (construct_A _ _ _ _ _ o.simulation.pol _).1 = _
    rw [hp]
  simp only [h1]
  refine continuous_const.add ?_
  unfold spdiag
  refine Continuous.matrix_diagonal (continuous_pi fun k => ?_)
  exact continuous_const.mul (Complex.continuous_ofReal.comp (rho2eps_continuous _ _ _ _ _ _))

theorem tail_Ez_continuous_all (o : Opt Nx Ny) (i : Fin Nx) (j : Fin Ny) :
    Continuous fun q : Grid Nx Ny ℝ × Vec (Nx * Ny) ℂ × Vec (Nx * Ny) ℂ => Opt.tail_Ez o q.1 (unflatten q.2.1) (unflatten q.2.2) i j := by
  unfold Opt.tail_Ez Opt.filtDot unflatten
  refine Complex.continuous_re.comp (continuous_finsetSum _ fun k _ => ?_)
  have h0 : Continuous fun q : Grid Nx Ny ℝ × Vec (Nx * Ny) ℂ × Vec (Nx * Ny) ℂ => ((Opt.projMat o q.1 k : ℝ) : ℂ) := Complex.continuous_ofReal.comp ((projMat_continuous o k).comp continuous_fst)
  have h1 : Continuous fun q : Grid Nx Ny ℝ × Vec (Nx * Ny) ℂ × Vec (Nx * Ny) ℂ => flatten (unflatten q.2.1 : Grid Nx Ny ℂ) k :=
    (continuous_apply k).comp (flatten_continuous.comp (unflatten_continuous.comp (continuous_fst.comp continuous_snd)))
  have h2 : Continuous fun q : Grid Nx Ny ℝ × Vec (Nx * Ny) ℂ × Vec (Nx * Ny) ℂ => flatten (unflatten q.2.2 : Grid Nx Ny ℂ) k :=
    (continuous_apply k).comp (flatten_continuous.comp (unflatten_continuous.comp (continuous_snd.comp continuous_snd)))
  exact (continuous_const.mul (continuous_const.mul ((h1.mul h0).mul continuous_const))).mul h2

theorem tail_Ez_tendsto_all (o : Opt Nx Ny) (i : Fin Nx) (j : Fin Ny) {x : ℕ → Grid Nx Ny ℝ} {x0 : Grid Nx Ny ℝ} {X Y : ℕ → Vec (Nx * Ny) ℂ} {X0 Y0 : Vec (Nx * Ny) ℂ}
    (hx : Tendsto x atTop (𝓝 x0)) (hX : Tendsto X atTop (𝓝 X0)) (hY : Tendsto Y atTop (𝓝 Y0)) :
    Tendsto (fun n => Opt.tail_Ez o (x n) (unflatten (X n)) (unflatten (Y n)) i j) atTop (𝓝 (Opt.tail_Ez o x0 (unflatten X0) (unflatten Y0) i j)) := by
  have key : ∀ f : Grid Nx Ny ℝ × Vec (Nx * Ny) ℂ × Vec (Nx * Ny) ℂ → ℝ, Continuous f → Tendsto (fun n => f (x n, X n, Y n)) atTop (𝓝 (f (x0, X0, Y0))) :=
    fun f hf => (hf.tendsto _).comp (hx.prodMk_nhds (hX.prodMk_nhds hY))
  exact key (fun q => Opt.tail_Ez o q.1 (unflatten q.2.1) (unflatten q.2.2) i j) (tail_Ez_continuous_all o i j)

/-! ## The computed gradient as a function of the density -/

/-- The solution vector at a density. -/
noncomputable def solAt (env : Env) (o : Opt Nx Ny) (x : Grid Nx Ny ℝ) : Vec (Nx * Ny) ℂ := solver_direct env (Spec.simAt o x).A o.simulation.rhs

/-- The fields the objective gets at a density. -/
noncomputable def argsAt (env : Env) (o : Opt Nx Ny) (J : ObjFn Nx Ny) (args : List ObjArg) (hlen : args.length = J.arity) (x : Grid Nx Ny ℝ) : Fin J.arity → Grid Nx Ny ℂ :=
  fun k => linField o.simulation (solAt env o x) (args.get (k.cast hlen.symm)).component

/-- What the code computes as the gradient at a density. -/
noncomputable def gradAt (env : Env) (o : Opt Nx Ny) (J : ObjFn Nx Ny) (args : List ObjArg) (hlen : args.length = J.arity) (x : Grid Nx Ny ℝ) : Grid Nx Ny ℝ := fun i j =>
  ∑ k : Fin J.arity, Opt.tail_Ez o x (unflatten (solAt env o x))
    (unflatten (solver_direct env (Spec.simAt o x).Aᵀ (-(linPart o.simulation (J.partials k (argsAt env o J args hlen x)) (args.get (k.cast hlen.symm)).component)))) i j

theorem linPart_simAt (o : Opt Nx Ny) (hv : o.simulation.Valid) (x : Grid Nx Ny ℝ) (p : Grid Nx Ny ℂ) (c : Comp) : linPart (Spec.simAt o x) p c = linPart o.simulation p c := by
  have hd : (Spec.simAt o x).derivs = o.simulation.derivs := by
    rw [hv.derivs_eq]
    exact construct_A_derivs _ _ _ _ _ _ _ _
  have ho : (Spec.simAt o x).omega = o.simulation.omega := rfl
  have hL : (Spec.simAt o x).L0 = o.simulation.L0 := rfl
  cases c <;> simp only [linPart, hd, ho, hL]

namespace Spec.EzProblem
variable {o : Opt Nx Ny} {J : ObjFn Nx Ny} {args : List ObjArg}

theorem compute_dJ_gradAt (h : Spec.EzProblem o J args) (env : Env) {x : Grid Nx Ny ℝ} (hx : Spec.Box x) (o' : Opt Nx Ny) (hs : StateAt o x o') :
    (Opt.compute_dJ env o').1 = .ok (gradAt env o J args h.len x) := by
  have hs0 := h.stateAt_putRho x
  have hL := h.linear env hx hs0
  rw [compute_dJ_same hL (h.linear env hx hs) h.ezArgs ⟨hs.same.objective, hs.same.W, hs.same.design, hs.same.eps_m, hs.same.eta, hs.same.beta, hs.same.shift, hs.same.omega, hs.same.L0,
    hs.same.NPML, hs.same.pol, hs.same.src, hs.same.xrange, hs.same.yrange⟩]
  rw [(dJ_Ez_formula env _ J args x hL h.ezArgs h.len).2]
  have eA : ({ Opt.putRho o x with fields_current := false } : Opt Nx Ny).simulation.A = (Spec.simAt o x).A := rfl
  have eR : ({ Opt.putRho o x with fields_current := false } : Opt Nx Ny).simulation.rhs = o.simulation.rhs := rfl
  have eF : ∀ X c, linField ({ Opt.putRho o x with fields_current := false } : Opt Nx Ny).simulation X c = linField o.simulation X c := fun X c => linField_simAt o h.valid x X c
  have eP : ∀ p c, linPart ({ Opt.putRho o x with fields_current := false } : Opt Nx Ny).simulation p c = linPart o.simulation p c := fun p c => linPart_simAt o h.valid x p c
  have eT : ∀ a b, Opt.tail_Ez ({ Opt.putRho o x with fields_current := false } : Opt Nx Ny) x a b = Opt.tail_Ez o x a b := fun a b => rfl
  generalize ({ Opt.putRho o x with fields_current := false } : Opt Nx Ny) = o1 at eA eR eF eP eT ⊢
  simp only [eA, eR, eF, eP, eT]
  rfl

theorem solAt_tendsto (h : Spec.EzProblem o J args) {env : ℕ → Env} (hw : ∀ k : ℕ, (env k).Within (1 / ((k : ℝ) + 1))) {env0 : Env} (he : env0.Exact) {x : ℕ → Grid Nx Ny ℝ} {x0 : Grid Nx Ny ℝ}
    (hx : ∀ k, Spec.Box (x k)) (hx0 : Spec.Box x0) (ht : Tendsto x atTop (𝓝 x0)) : Tendsto (fun n => solAt (env n) o (x n)) atTop (𝓝 (solAt env0 o x0)) :=
  solver_tendsto_var hw (h.solvable _ hx0) (((simAt_A_continuous o h.pol).tendsto x0).comp ht) tendsto_const_nhds he

theorem argsAt_tendsto (h : Spec.EzProblem o J args) {env : ℕ → Env} (hw : ∀ k : ℕ, (env k).Within (1 / ((k : ℝ) + 1))) {env0 : Env} (he : env0.Exact) {x : ℕ → Grid Nx Ny ℝ} {x0 : Grid Nx Ny ℝ}
    (hx : ∀ k, Spec.Box (x k)) (hx0 : Spec.Box x0) (ht : Tendsto x atTop (𝓝 x0)) : Tendsto (fun n => argsAt (env n) o J args h.len (x n)) atTop (𝓝 (argsAt env0 o J args h.len x0)) :=
  tendsto_pi_nhds.2 fun _ => ((linField_continuous o.simulation _).tendsto _).comp (h.solAt_tendsto hw he hx hx0 ht)

theorem linObj_tendsto_var (h : Spec.EzProblem o J args) {env : ℕ → Env} (hw : ∀ k : ℕ, (env k).Within (1 / ((k : ℝ) + 1))) {env0 : Env} (he : env0.Exact) {x : ℕ → Grid Nx Ny ℝ}
    {x0 : Grid Nx Ny ℝ} (hx : ∀ k, Spec.Box (x k)) (hx0 : Spec.Box x0) (ht : Tendsto x atTop (𝓝 x0)) :
    Tendsto (fun n => linObj (env n) o J args h.len (x n)) atTop (𝓝 (linObj env0 o J args h.len x0)) := by
  have e : ∀ (env : Env) (x : Grid Nx Ny ℝ), linObj env o J args h.len x = J.eval (argsAt env o J args h.len x) := by
    intro env x
    unfold linObj argsAt solAt
    simp only [linField_simAt o h.valid x]
    rfl
  simp only [e]
  obtain ⟨L, -, hL⟩ := h.autograd (argsAt env0 o J args h.len x0)
  exact hL.continuousAt.tendsto.comp (h.argsAt_tendsto hw he hx hx0 ht)

theorem gradAt_tendsto (h : Spec.EzProblem o J args) (hc : ∀ k, Continuous (J.partials k)) {env : ℕ → Env} (hw : ∀ k : ℕ, (env k).Within (1 / ((k : ℝ) + 1))) {env0 : Env} (he : env0.Exact)
    {x : ℕ → Grid Nx Ny ℝ} {x0 : Grid Nx Ny ℝ} (hx : ∀ k, Spec.Box (x k)) (hx0 : Spec.Box x0) (ht : Tendsto x atTop (𝓝 x0)) :
    Tendsto (fun n => gradAt (env n) o J args h.len (x n)) atTop (𝓝 (gradAt env0 o J args h.len x0)) := by
  refine tendsto_pi_nhds.2 fun i => tendsto_pi_nhds.2 fun j => ?_
  unfold gradAt
  refine tendsto_finsetSum _ fun k _ => ?_
  have hb : Tendsto (fun n => -(linPart o.simulation (J.partials k (argsAt (env n) o J args h.len (x n))) (args.get (k.cast h.len.symm)).component)) atTop
      (𝓝 (-(linPart o.simulation (J.partials k (argsAt env0 o J args h.len x0)) (args.get (k.cast h.len.symm)).component))) :=
    (((linPart_continuous o.simulation _).tendsto _).comp (((hc k).tendsto _).comp (h.argsAt_tendsto hw he hx hx0 ht))).neg
  have hdt : ∀ y, Spec.Box y → (Spec.simAt o y).Aᵀ.det ≠ 0 := fun y hy => by rw [Matrix.det_transpose]; exact h.solvable y hy
  have hAt : Tendsto (fun n => (Spec.simAt o (x n)).Aᵀ) atTop (𝓝 (Spec.simAt o x0).Aᵀ) := (((simAt_A_continuous o h.pol).matrix_transpose).tendsto x0).comp ht
  have hY := solver_tendsto_var hw (hdt _ hx0) hAt hb he
  exact tail_Ez_tendsto_all o i j ht (h.solAt_tendsto hw he hx hx0 ht) hY

end Spec.EzProblem

/-! ## Paths of the optimisers -/

/-- Projected steps along any function of the density. -/
noncomputable def gdIter (G : Grid Nx Ny ℝ → Grid Nx Ny ℝ) (design : Grid Nx Ny ℝ) (s : ℝ) (x : Grid Nx Ny ℝ) : ℕ → Grid Nx Ny ℝ
  | 0 => x
  | k + 1 => Spec.move design (gdIter G design s x k) fun i j => s * G (gdIter G design s x k) i j

theorem box_gdIter (G : Grid Nx Ny ℝ → Grid Nx Ny ℝ) (design : Grid Nx Ny ℝ) (s : ℝ) {x : Grid Nx Ny ℝ} (hx : Spec.Box x) (k : ℕ) : Spec.Box (gdIter G design s x k) := by
  induction k with
  | zero => exact hx
  | succ k ih => exact box_move ih _

theorem gdIter_eq {G : Grid Nx Ny ℝ → Grid Nx Ny ℝ} {F : Grid Nx Ny ℝ → ℝ} {design : Grid Nx Ny ℝ} (hG : ∀ x, Spec.Box x → ∀ i j, design i j = 1 → G x i j = Spec.partials F x i j) (s : ℝ)
    {x : Grid Nx Ny ℝ} (hx : Spec.Box x) (k : ℕ) : gdIter G design s x k = Spec.gdPath F design s x k := by
  induction k with
  | zero => rfl
  | succ k ih =>
    show Spec.move design (gdIter G design s x k) _ = Spec.move design (Spec.gdPath F design s x k) _
    rw [ih]
    exact move_congr fun i j hd => by rw [hG _ (box_gdPath F design s hx k) i j hd]

theorem move_tendsto_any (design : Grid Nx Ny ℝ) {x u : ℕ → Grid Nx Ny ℝ} {x0 u0 : Grid Nx Ny ℝ} (hx : Tendsto x atTop (𝓝 x0)) (hu : ∀ i j, Tendsto (fun n => u n i j) atTop (𝓝 (u0 i j))) :
    Tendsto (fun n => Spec.move design (x n) (u n)) atTop (𝓝 (Spec.move design x0 u0)) := by
  refine tendsto_pi_nhds.2 fun i => tendsto_pi_nhds.2 fun j => ?_
  have hxij := tendsto_pi_nhds.1 (tendsto_pi_nhds.1 hx i) j
  unfold Spec.move
  split_ifs
  · exact tendsto_const_nhds.max (tendsto_const_nhds.min (hxij.add (hu i j)))
  · exact hxij

/-- The functions `G n` tend to `G0` along converging densities between 0 and 1. -/
def TendsTo (G : ℕ → Grid Nx Ny ℝ → Grid Nx Ny ℝ) (G0 : Grid Nx Ny ℝ → Grid Nx Ny ℝ) : Prop :=
  ∀ (x : ℕ → Grid Nx Ny ℝ) (x0 : Grid Nx Ny ℝ), (∀ n, Spec.Box (x n)) → Spec.Box x0 → Tendsto x atTop (𝓝 x0) → Tendsto (fun n => G n (x n)) atTop (𝓝 (G0 x0))

theorem gdIter_tendsto {G : ℕ → Grid Nx Ny ℝ → Grid Nx Ny ℝ} {G0 : Grid Nx Ny ℝ → Grid Nx Ny ℝ} (hG : TendsTo G G0) (design : Grid Nx Ny ℝ) (s : ℝ) {x : Grid Nx Ny ℝ} (hx : Spec.Box x)
    (k : ℕ) : Tendsto (fun n => gdIter (G n) design s x k) atTop (𝓝 (gdIter G0 design s x k)) := by
  induction k with
  | zero => exact tendsto_const_nhds
  | succ k ih =>
    have hg := hG _ _ (fun n => box_gdIter (G n) design s hx k) (box_gdIter G0 design s hx k) ih
    exact move_tendsto_any design ih fun i j => (tendsto_pi_nhds.1 (tendsto_pi_nhds.1 hg i) j).const_mul s

theorem box_adamState (G : Grid Nx Ny ℝ → Grid Nx Ny ℝ) (design : Grid Nx Ny ℝ) (s : ℝ) {b1 b2 : ℝ} (hb1 : 0 ≤ b1 ∧ b1 < 1) (hb2 : 0 ≤ b2 ∧ b2 < 1) {x : Grid Nx Ny ℝ} (hx : Spec.Box x) (k : ℕ) :
    Spec.Box (adamState G design s b1 b2 x k).2 := by
  induction k with
  | zero => exact hx
  | succ k ih =>
    rw [(adamState_spec G design s hb1 hb2 x k).2.2]
    exact box_move ih _

theorem average_tendsto_upto (b : ℝ) (k : ℕ) {f : ℕ → ℕ → ℝ} {f0 : ℕ → ℝ} (h : ∀ m, m ≤ k → Tendsto (fun n => f n m) atTop (𝓝 (f0 m))) :
    Tendsto (fun n => Spec.average b (f n) k) atTop (𝓝 (Spec.average b f0 k)) := by
  unfold Spec.average
  exact tendsto_finsetSum _ fun m hm => (h m (Nat.lt_succ_iff.1 (Finset.mem_range.1 hm))).const_mul _

theorem adamState_tendsto {G : ℕ → Grid Nx Ny ℝ → Grid Nx Ny ℝ} {G0 : Grid Nx Ny ℝ → Grid Nx Ny ℝ} (hG : TendsTo G G0) (design : Grid Nx Ny ℝ) (s : ℝ) {b1 b2 : ℝ} (hb1 : 0 ≤ b1 ∧ b1 < 1)
    (hb2 : 0 ≤ b2 ∧ b2 < 1) {x : Grid Nx Ny ℝ} (hx : Spec.Box x) (k : ℕ) :
    Tendsto (fun n => (adamState (G n) design s b1 b2 x k).2) atTop (𝓝 (adamState G0 design s b1 b2 x k).2) := by
  induction k using Nat.strong_induction_on with
  | _ k ih =>
    rcases k with _ | k
    · exact tendsto_const_nhds
    · have e : ∀ G : Grid Nx Ny ℝ → Grid Nx Ny ℝ, (adamState G design s b1 b2 x (k + 1)).2 = Spec.move design (adamState G design s b1 b2 x k).2 fun i j =>
          s * (Spec.average b1 (fun m => G (adamState G design s b1 b2 x m).2 i j) k / (√(Spec.average b2 (fun m => G (adamState G design s b1 b2 x m).2 i j ^ 2) k) + 1e-8)) :=
        fun G => (adamState_spec G design s hb1 hb2 x k).2.2
      simp only [e]
      have hg : ∀ i j m, m ≤ k → Tendsto (fun n => G n (adamState (G n) design s b1 b2 x m).2 i j) atTop (𝓝 (G0 (adamState G0 design s b1 b2 x m).2 i j)) := fun i j m hm =>
        tendsto_pi_nhds.1 (tendsto_pi_nhds.1 (hG _ _ (fun n => box_adamState (G n) design s hb1 hb2 hx m) (box_adamState G0 design s hb1 hb2 hx m) (ih m (by omega))) i) j
      refine move_tendsto_any design (ih k (by omega)) fun i j => Tendsto.const_mul s ?_
      refine (average_tendsto_upto b1 k (hg i j)).div (((Real.continuous_sqrt.tendsto _).comp (average_tendsto_upto b2 k fun m hm => (hg i j m hm).pow 2)).add_const _) ?_
      have := Real.sqrt_nonneg (Spec.average b2 (fun m => G0 (adamState G0 design s b1 b2 x m).2 i j ^ 2) k)
      positivity

namespace Spec.EzProblem
variable {o : Opt Nx Ny} {J : ObjFn Nx Ny} {args : List ObjArg}

theorem run_GD_any (h : Spec.EzProblem o J args) (env : Env) {F : Grid Nx Ny ℝ → ℝ} (hF : Spec.IsObjective env o F) {G : Grid Nx Ny ℝ → Grid Nx Ny ℝ}
    (hG : ∀ x, Spec.Box x → ∀ o', StateAt o x o' → (Opt.compute_dJ env o').1 = .ok (G x)) (s : ℝ) (P : ℕ → Grid Nx Ny ℝ) (hb : ∀ k, Spec.Box (P k))
    (hP : ∀ k, P (k + 1) = Spec.move o.design_region (P k) fun i j => s * G (P k) i j) (n k : ℕ) (o' : Opt Nx Ny) (hs : StateAt o (P k) o') :
    ∃ o'', Opt.run_GD env s n o' = (.ok (), o'') ∧ StateAt o (P (k + n)) o'' ∧ o''.objfn_list = o'.objfn_list ++ (List.range n).map fun m => F (P (k + m)) := by
  induction n generalizing k o' with
  | zero => exact ⟨o', rfl, hs, by simp⟩
  | succ n ih =>
    obtain ⟨q1, q2, q3, g, h1, h2, h3, h4, h5⟩ := iteration_Ez env (h.linear env (hb k) hs) h.ezArgs h.len (hs.same.shift.trans h.shift)
    have hFo : F (P k) = Angler.linObj env o' J args h.len (P k) := by rw [h.objective_eq env hF, hs.same.linObj]
    obtain rfl : g = G (P k) := Except.ok.inj (h4.symm.trans (hG _ (hb k) o' hs))
    obtain ⟨o1, hu, hsame, hv, hstale, hl1, hrho, heps⟩ := h5 (G (P k)) s
    rw [hs.same.design, clip_eq_move h.mask (hb k), ← hP k] at hrho heps
    rw [← hFo] at hl1 h1 h2
    obtain ⟨o2, r2, hs2, hl2⟩ := ih (k + 1) o1 ⟨hs.same.trans hsame, hv, hstale, hrho, heps⟩
    refine ⟨o2, ?_, ?_, ?_⟩
    · have h6 : Opt.stepGD env s o' = (.ok (), o1) := by
        unfold Opt.stepGD
        rw [h1]
        simp only [pySeq]
        rw [h2]
        simp only
        rw [h3]
        exact hu
      show pySeq (Opt.stepGD env s o') _ = _
      rw [h6]
      exact r2
    · rw [show k + (n + 1) = k + 1 + n by omega]
      exact hs2
    · rw [hl2, hl1, List.range_succ_eq_map, List.map_cons, List.map_map, List.append_assoc]
      congr 1
      rw [List.singleton_append, add_zero]
      congr 1
      refine List.map_congr_left fun m _ => ?_
      simp only [Function.comp]
      rw [show k + 1 + m = k + m.succ by omega]

/-- A converging family of paths, seen from one solver that is accurate enough. -/
theorem close_of_tendsto (h : Spec.EzProblem o J args) {env0 : Env} (he : env0.Exact) (P : Env → ℕ → Grid Nx Ny ℝ) (hb : ∀ env k, Spec.Box (P env k)) (n : ℕ)
    (hP : ∀ env : ℕ → Env, (∀ k : ℕ, (env k).Within (1 / ((k : ℝ) + 1))) → ∀ k, Tendsto (fun m => P (env m) k) atTop (𝓝 (P env0 k))) (δ : ℝ) (hδ : 0 < δ) :
    ∃ τ, 0 < τ ∧ ∀ env : Env, env.Within τ → (∀ i j, |P env n i j - P env0 n i j| < δ) ∧
      (∀ i j, |rho2eps (P env n) o.eps_m o.W o.eta o.beta i j - rho2eps (P env0 n) o.eps_m o.W o.eta o.beta i j| < δ) ∧
      ∀ k, k < n → |Angler.linObj env o J args h.len (P env k) - Angler.linObj env0 o J args h.len (P env0 k)| < δ := by
  refine uniform_of_sequences _ fun env hw => ?_
  have hp := hP env hw
  have e1 : ∀ᶠ m in atTop, ∀ i j, |P (env m) n i j - P env0 n i j| < δ := Filter.eventually_all.2 fun i => Filter.eventually_all.2 fun j => by
    have := Metric.tendsto_nhds.1 (tendsto_pi_nhds.1 (tendsto_pi_nhds.1 (hp n) i) j) δ hδ
    simpa only [Real.dist_eq] using this
  have e2 : ∀ᶠ m in atTop, ∀ i j, |rho2eps (P (env m) n) o.eps_m o.W o.eta o.beta i j - rho2eps (P env0 n) o.eps_m o.W o.eta o.beta i j| < δ :=
    Filter.eventually_all.2 fun i => Filter.eventually_all.2 fun j => by
      have := Metric.tendsto_nhds.1 (((rho2eps_continuous o.eps_m o.W o.eta o.beta i j).tendsto _).comp (hp n)) δ hδ
      simpa only [Real.dist_eq, Function.comp] using this
  have e3 : ∀ᶠ m in atTop, ∀ k : Fin n, |Angler.linObj (env m) o J args h.len (P (env m) k) - Angler.linObj env0 o J args h.len (P env0 k)| < δ := Filter.eventually_all.2 fun k => by
    have := Metric.tendsto_nhds.1 (h.linObj_tendsto_var hw he (fun m => hb (env m) k) (hb env0 k) (hp k)) δ hδ
    simpa only [Real.dist_eq] using this
  obtain ⟨m, m1, m2, m3⟩ := (e1.and (e2.and e3)).exists
  exact ⟨m, m1, m2, fun k hk => m3 ⟨k, hk⟩⟩

theorem gradAt_partials (h : Spec.EzProblem o J args) {env0 : Env} (he : env0.Exact) {F : Grid Nx Ny ℝ → ℝ} (hF : Spec.IsObjective env0 o F) (x : Grid Nx Ny ℝ) (hx : Spec.Box x) (i : Fin Nx)
    (j : Fin Ny) (hd : o.design_region i j = 1) : gradAt env0 o J args h.len x i j = Spec.partials F x i j :=
  (h.gradient env0 he hF hx (h.stateAt_putRho x) (h.compute_dJ_gradAt env0 hx _ (h.stateAt_putRho x))).1 i j hd

end Spec.EzProblem

/-- **C120, gradient ascent.** For an Ez problem whose objective has continuous derivatives, any number `n` of steps, any step size and any `δ > 0` there is an accuracy of the linear solves such that
`run('gd')`, with any solver of that accuracy, ends with densities and permittivities within `δ` of those of `n` steps of projected gradient ascent on the exact objective, and records `n` values
within `δ` of the objective along that path. -/
theorem C120_gd (env0 : Env) (he : env0.Exact) (o : Opt Nx Ny) (J : ObjFn Nx Ny) (args : List ObjArg) (h : Spec.EzProblem o J args) (hc : ∀ k, Continuous (J.partials k)) (F : Grid Nx Ny ℝ → ℝ)
    (hF : Spec.IsObjective env0 o F) (rho : Grid Nx Ny ℝ) (hbox : Spec.Box rho) (hrho : o.simulation.rho = some (some rho))
    (heps : o.simulation.eps_r = fun i j => ((rho2eps rho o.eps_m o.W o.eta o.beta i j : ℝ) : ℂ)) (n : ℕ) (s b1 b2 : ℝ) (calls : List Opt.LbfgsCall) (y : List ℝ) (δ : ℝ) (hδ : 0 < δ) :
    ∃ τ, 0 < τ ∧ ∀ env : Env, env.Within τ → ∃ (o' : Opt Nx Ny) (r : Grid Nx Ny ℝ) (v : ℕ → ℝ), Opt.run env "gd" n s b1 b2 calls y o = (.ok (), o') ∧ o'.simulation.rho = some (some r) ∧
      (∀ i j, |r i j - Spec.gdPath F o.design_region s rho n i j| < δ) ∧
      (∀ i j, ‖o'.simulation.eps_r i j - ((rho2eps (Spec.gdPath F o.design_region s rho n) o.eps_m o.W o.eta o.beta i j : ℝ) : ℂ)‖ < δ) ∧
      o'.objfn_list = o.objfn_list ++ (List.range n).map v ∧ ∀ k, k < n → |v k - F (Spec.gdPath F o.design_region s rho k)| < δ := by
  have hs : StateAt o rho { o with fields_current := false } :=
    ⟨⟨rfl, rfl, rfl, rfl, rfl, rfl, rfl, rfl, rfl, rfl, rfl, rfl, rfl, rfl⟩, h.valid, rfl, hrho, heps⟩
  obtain ⟨τ, hτ, hcl⟩ := h.close_of_tendsto he (fun env => gdIter (gradAt env o J args h.len) o.design_region s rho) (fun env => box_gdIter _ _ s hbox) n
    (fun env hw k => gdIter_tendsto (fun x x0 hx hx0 ht => h.gradAt_tendsto hc hw he hx hx0 ht) o.design_region s hbox k) δ hδ
  have hpath : ∀ k, gdIter (gradAt env0 o J args h.len) o.design_region s rho k = Spec.gdPath F o.design_region s rho k := gdIter_eq (h.gradAt_partials he hF) s hbox
  have hFl : F = linObj env0 o J args h.len := h.objective_eq env0 hF
  refine ⟨τ, hτ, fun env hw => ?_⟩
  obtain ⟨c1, c2, c3⟩ := hcl env hw
  simp only [hpath] at c1 c2 c3
  obtain ⟨o', r1, r2, r3⟩ := h.run_GD_any env (h.isObjective env) (fun x hx => h.compute_dJ_gradAt env hx) s (gdIter (gradAt env o J args h.len) o.design_region s rho)
    (box_gdIter _ _ s hbox) (fun _ => rfl) n 0 { o with fields_current := false } hs
  simp only [zero_add] at r2 r3
  refine ⟨o', _, _, ?_, r2.rho, c1, fun i j => ?_, r3, fun k hk => ?_⟩
  · rw [run_gd hrho lower_gd]
    exact r1
  · rw [r2.eps, r2.same.W, r2.same.eps_m, r2.same.eta, r2.same.beta, ← Complex.ofReal_sub, Complex.norm_real]
    exact c2 i j
  · rw [hFl] at c3 ⊢
    exact c3 k hk

/-- **C120, Adam.** The same for `run('adam')` with decay rates in `[0, 1)`: one sequence of densities, that of Adam on the exact objective, is followed within `δ` for any number of steps by every
solver that is accurate enough. -/
theorem C120_adam (env0 : Env) (he : env0.Exact) (o : Opt Nx Ny) (J : ObjFn Nx Ny) (args : List ObjArg) (h : Spec.EzProblem o J args) (hc : ∀ k, Continuous (J.partials k)) (F : Grid Nx Ny ℝ → ℝ)
    (hF : Spec.IsObjective env0 o F) (rho : Grid Nx Ny ℝ) (hbox : Spec.Box rho) (hrho : o.simulation.rho = some (some rho))
    (heps : o.simulation.eps_r = fun i j => ((rho2eps rho o.eps_m o.W o.eta o.beta i j : ℝ) : ℂ)) (s b1 b2 : ℝ) (hb1 : 0 ≤ b1 ∧ b1 < 1) (hb2 : 0 ≤ b2 ∧ b2 < 1)
    (calls : List Opt.LbfgsCall) (y : List ℝ) :
    ∃ r : ℕ → Grid Nx Ny ℝ, r 0 = rho ∧ Spec.AdamPath F o.design_region s b1 b2 r ∧ ∀ (n : ℕ) (δ : ℝ), 0 < δ → ∃ τ, 0 < τ ∧ ∀ env : Env, env.Within τ →
      ∃ (o' : Opt Nx Ny) (r' : Grid Nx Ny ℝ) (v : ℕ → ℝ), Opt.run env "adam" n s b1 b2 calls y o = (.ok (), o') ∧ o'.simulation.rho = some (some r') ∧ (∀ i j, |r' i j - r n i j| < δ) ∧
        (∀ i j, ‖o'.simulation.eps_r i j - ((rho2eps (r n) o.eps_m o.W o.eta o.beta i j : ℝ) : ℂ)‖ < δ) ∧
        o'.objfn_list = o.objfn_list ++ (List.range n).map v ∧ ∀ k, k < n → |v k - F (r k)| < δ := by
  have hs : StateAt o rho { o with fields_current := false } :=
    ⟨⟨rfl, rfl, rfl, rfl, rfl, rfl, rfl, rfl, rfl, rfl, rfl, rfl, rfl, rfl⟩, h.valid, rfl, hrho, heps⟩
  have hFl : F = linObj env0 o J args h.len := h.objective_eq env0 hF
  have hb := box_adamState (gradAt env0 o J args h.len) o.design_region s hb1 hb2 hbox
  refine ⟨fun k => (adamState (gradAt env0 o J args h.len) o.design_region s b1 b2 rho k).2, rfl, fun k => ?_, fun n δ hδ => ?_⟩
  · beta_reduce
    rw [(adamState_spec (gradAt env0 o J args h.len) o.design_region s hb1 hb2 rho k).2.2]
    refine move_congr fun i j hd => ?_
    have e := fun m => h.gradAt_partials he hF _ (hb m) i j hd
    unfold Spec.adamStep
    simp only [e]
  · obtain ⟨τ, hτ, hcl⟩ := h.close_of_tendsto he (fun env k => (adamState (gradAt env o J args h.len) o.design_region s b1 b2 rho k).2) (fun env => box_adamState _ _ s hb1 hb2 hbox) n
      (fun env hw k => adamState_tendsto (fun x x0 hx hx0 ht => h.gradAt_tendsto hc hw he hx hx0 ht) o.design_region s hb1 hb2 hbox k) δ hδ
    refine ⟨τ, hτ, fun env hw => ?_⟩
    obtain ⟨c1, c2, c3⟩ := hcl env hw
    obtain ⟨o', r1, r2, r3⟩ := h.loopADAM env (h.isObjective env) (fun x hx => h.compute_dJ_gradAt env hx) s hb1 hb2 rho (box_adamState _ _ s hb1 hb2 hbox) n 0
      { o with fields_current := false } hs
    simp only [zero_add] at r2 r3
    refine ⟨o', _, _, ?_, r2.rho, c1, fun i j => ?_, r3, fun k hk => ?_⟩
    · rw [run_adam hrho lower_adam]
      exact r1
    · rw [r2.eps, r2.same.W, r2.same.eps_m, r2.same.eta, r2.same.beta, ← Complex.ofReal_sub, Complex.norm_real]
      exact c2 i j
    · rw [hFl]
      exact c3 k hk

/-- **C120, convergence.** For a twice continuously differentiable objective there is a step size below which, for every `ε > 0`, every long enough run of gradient ascent with an accurate enough solver
ends within `ε` of a first-order optimum of the exact objective, and no recorded value is more than `ε` below the one before it. -/
theorem C120_converges (env0 : Env) (he : env0.Exact) (o : Opt Nx Ny) (J : ObjFn Nx Ny) (args : List ObjArg) (h : Spec.EzProblem o J args) (hJ : ContDiff ℝ 2 J.eval)
    (hc : ∀ k, Continuous (J.partials k)) (F : Grid Nx Ny ℝ → ℝ) (hF : Spec.IsObjective env0 o F) (rho : Grid Nx Ny ℝ) (hbox : Spec.Box rho) (hrho : o.simulation.rho = some (some rho))
    (heps : o.simulation.eps_r = fun i j => ((rho2eps rho o.eps_m o.W o.eta o.beta i j : ℝ) : ℂ)) (b1 b2 : ℝ) (calls : List Opt.LbfgsCall) (y : List ℝ) :
    ∃ s0 : ℝ, 0 < s0 ∧ ∀ s, 0 < s → s ≤ s0 → ∀ ε, 0 < ε → ∃ n0 : ℕ, ∀ n, n0 ≤ n → ∃ τ, 0 < τ ∧ ∀ env : Env, env.Within τ →
      ∃ (o' : Opt Nx Ny) (r z : Grid Nx Ny ℝ) (v : ℕ → ℝ), Opt.run env "gd" n s b1 b2 calls y o = (.ok (), o') ∧ o'.simulation.rho = some (some r) ∧
        Spec.Box z ∧ Spec.Stationary F o.design_region z ∧ (∀ i j, |r i j - z i j| < ε) ∧
        o'.objfn_list = o.objfn_list ++ (List.range n).map v ∧ ∀ k, k + 1 < n → v k - ε < v (k + 1) := by
  obtain ⟨s0, h0, h1⟩ := C85_gd_converges env0 he o J args h hJ F hF rho hbox hrho heps
  refine ⟨s0, h0, fun s hs hs0 ε hε => ?_⟩
  obtain ⟨r0, -, -, hrun, hup, -, -, -, -, -, hcl⟩ := h1 s hs hs0
  have hr0 : ∀ n, r0 n = Spec.gdPath F o.design_region s rho n := by
    intro n
    obtain ⟨o1, e1, e2, -⟩ := hrun n b1 b2 calls y
    obtain ⟨o2, f1, f2, -, -⟩ := C84_gd env0 he o J args h F hF rho hbox hrho heps n s b1 b2 calls y
    obtain rfl : o1 = o2 := (Prod.mk.inj (e1.symm.trans f1)).2
    exact Option.some.inj (Option.some.inj (e2.symm.trans f2))
  obtain ⟨n0, hn0⟩ := Filter.eventually_atTop.1 (hcl (ε / 2) (by linarith))
  refine ⟨n0, fun n hn => ?_⟩
  obtain ⟨z, hz, hzs, hzc⟩ := hn0 n hn
  obtain ⟨τ, hτ, hτ'⟩ := C120_gd env0 he o J args h hc F hF rho hbox hrho heps n s b1 b2 calls y (ε / 2) (by linarith)
  refine ⟨τ, hτ, fun env hw => ?_⟩
  obtain ⟨o', r, v, k1, k2, k3, -, k5, k6⟩ := hτ' env hw
  refine ⟨o', r, z, v, k1, k2, hz, hzs, fun i j => ?_, k5, fun k hk => ?_⟩
  · have a := hzc i j
    have b := k3 i j
    rw [hr0] at a
    have := abs_sub_le (r i j) (Spec.gdPath F o.design_region s rho n i j) (z i j)
    linarith
  · have a := abs_lt.1 (k6 k (by omega))
    have b := abs_lt.1 (k6 (k + 1) hk)
    have c := hup k
    rw [hr0, hr0] at c
    have d : 0 ≤ 1 / (2 * s) * Spec.distSq (Spec.gdPath F o.design_region s rho k) (Spec.gdPath F o.design_region s rho (k + 1)) :=
      mul_nonneg (by positivity) (Finset.sum_nonneg fun i _ => Finset.sum_nonneg fun j _ => sq_nonneg _)
    linarith

theorem intensityJ_partials_continuous (k : Fin 1) : Continuous ((intensityJ Nx Ny).partials k) := by
  show Continuous fun (x : Fin 1 → Grid Nx Ny ℂ) (i : Fin Nx) (j : Fin Ny) => 2 * (starRingEnd ℂ) (x 0 i j)
  exact continuous_pi fun i => continuous_pi fun j => continuous_const.mul (Complex.continuous_conj.comp ((continuous_apply j).comp ((continuous_apply i).comp (continuous_apply 0))))

/-- An intensity objective on a 9 × 9 grid with a PML and a solver that really has residuals: runs of both optimisers follow the exact paths, and long runs with small steps come close to first-order optima. -/
example (src : Grid 9 9 ℂ) (n : ℕ) (s δ : ℝ) (hδ : 0 < δ) :
    let o := gopt 1 src (Objective.mk' (intensityJ 9 9) [⟨.Ez, false, .linear_Ez⟩]) (fun _ _ => 1) 1
    ∃ F, Spec.IsObjective (exactEnv .pardiso) o F ∧
      (∃ τ, 0 < τ ∧ ∃ o' r, Opt.run (shiftEnv τ) "gd" n s 0.9 0.999 [] [] o = (.ok (), o') ∧ o'.simulation.rho = some (some r) ∧
        ∀ i j, |r i j - Spec.gdPath F (fun _ _ => 1) s (fun _ _ => 0) n i j| < δ) ∧
      (∃ q : ℕ → Grid 9 9 ℝ, Spec.AdamPath F (fun _ _ => 1) s 0.9 0.999 q ∧ ∃ τ, 0 < τ ∧ ∃ o' r, Opt.run (shiftEnv τ) "adam" n s 0.9 0.999 [] [] o = (.ok (), o') ∧
        o'.simulation.rho = some (some r) ∧ ∀ i j, |r i j - q n i j| < δ) ∧
      ∃ s0 : ℝ, 0 < s0 ∧ ∃ m, ∃ τ, 0 < τ ∧ ∃ o' r z, Opt.run (shiftEnv τ) "gd" m s0 0.9 0.999 [] [] o = (.ok (), o') ∧ o'.simulation.rho = some (some r) ∧
        Spec.Stationary F (fun _ _ => 1) z ∧ ∀ i j, |r i j - z i j| < δ := by
  intro o
  have he := exactEnv_exact Backend.pardiso
  have hp : Spec.EzProblem o (intensityJ 9 9) [⟨.Ez, false, .linear_Ez⟩] := gopt_problem (by norm_num) (by norm_num) 1 src _ intensityJ_autograd rfl _ fun _ _ => Or.inr rfl
  have hF := hp.isObjective (exactEnv .pardiso)
  have heps : o.simulation.eps_r = fun i j => ((rho2eps (fun _ _ => 0) o.eps_m o.W o.eta o.beta i j : ℝ) : ℂ) := by
    rw [rho2eps_zero]; funext i j; simp [o, gopt, gsim]
  have hbox : Spec.Box (fun _ _ => 0 : Grid 9 9 ℝ) := fun _ _ => ⟨le_rfl, zero_le_one⟩
  refine ⟨_, hF, ?_, ?_, ?_⟩
  · obtain ⟨τ, hτ, h⟩ := C120_gd (exactEnv .pardiso) he o _ _ hp intensityJ_partials_continuous _ hF _ hbox rfl heps n s 0.9 0.999 [] [] δ hδ
    obtain ⟨o', r, -, h1, h2, h3, -⟩ := h _ (shiftEnv_within τ hτ.le)
    exact ⟨τ, hτ, o', r, h1, h2, h3⟩
  · obtain ⟨q, -, hq, h⟩ := C120_adam (exactEnv .pardiso) he o _ _ hp intensityJ_partials_continuous _ hF _ hbox rfl heps s 0.9 0.999 (by norm_num) (by norm_num) [] []
    obtain ⟨τ, hτ, h⟩ := h n δ hδ
    obtain ⟨o', r, -, h1, h2, h3, -⟩ := h _ (shiftEnv_within τ hτ.le)
    exact ⟨q, hq, τ, hτ, o', r, h1, h2, h3⟩
  · obtain ⟨s0, h0, h⟩ := C120_converges (exactEnv .pardiso) he o _ _ hp contDiff_intensity intensityJ_partials_continuous _ hF _ hbox rfl heps 0.9 0.999 [] []
    obtain ⟨m, h⟩ := h s0 h0 le_rfl δ hδ
    obtain ⟨τ, hτ, h⟩ := h m le_rfl
    obtain ⟨o', r, z, -, h1, h2, -, h4, h5, -⟩ := h _ (shiftEnv_within τ hτ.le)
    exact ⟨s0, h0, m, τ, hτ, o', r, z, h1, h2, h4, h5⟩

end Angler
