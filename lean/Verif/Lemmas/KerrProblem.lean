import Verif.Lemmas.KerrAccurate
import Verif.Lemmas.AscentPath

/-! # Optimisation of weakly nonlinear devices: what one evaluation leaves -/

namespace Angler

open Matrix Filter Topology

variable {Nx Ny : ℕ}

/-! ## Specification -/

/-- Densities between `-a` and `1 + a`. -/
def Spec.NearBox (a : ℝ) (x : Grid Nx Ny ℝ) : Prop := ∀ i j, -a < x i j ∧ x i j < 1 + a

/-- An optimisation of a weakly nonlinear Ez device for an objective of the nonlinear Ez field.  `m`, `κ`, `R`: every device with densities in (or slightly beyond) the box is weak in the sense of C76
with these numbers, with contraction factor at most 1/2.  `κ1`: how fast the Kerr coefficient changes with the permittivity.  `ω`: bound of the chain-rule weights of the filter and the projection.
`P`: bound of the sum of the absolute values of the (trusted, correct) partial derivatives of the objective for fields up to `R`, `P1`: their Lipschitz constant there. -/
structure Spec.KerrProblem (o : Opt Nx Ny) (J : ObjFn Nx Ny) (args : List ObjArg) (m κ κ1 R ω P P1 a : ℝ) : Prop where
  obj : Objective.init J args = .ok o.objective
  kinds : ∀ b ∈ args, ObjArg.init "Ez" true = .ok b
  nonempty : args ≠ []
  valid : o.simulation.Valid
  pol : o.simulation.pol = .Ez
  beta : o.beta ≠ 0
  shift : o.max_ind_shift = none
  mask : Spec.Mask o.design_region
  filter : ∀ i j, o.design_region i j = 1 → Spec.FilterSym o.W o.design_region i j
  source : o.simulation.src ≠ 0
  room : 0 < a
  weak : ∀ x, Spec.NearBox a x → Spec.WeakKerr (Spec.simAt o x) m κ R
  rate : Spec.bornRate o.simulation m κ R ≤ 1 / 2
  slope : ∀ (e e' : Grid Nx Ny ℂ) i j, ‖Spec.kerrSum o.simulation.nonlinearity e i j - Spec.kerrSum o.simulation.nonlinearity e' i j‖ ≤ κ1 * ‖e i j - e' i j‖
  chain : ∀ x, Spec.Box x → ∀ i0 j0 i j,
    |(o.eps_m - 1) * drhob_drhot (rho2rhot x o.W i j) o.eta o.beta * (o.W (finProdFinEquiv (i0, j0)) (finProdFinEquiv (i, j)) * o.design_region i j)| ≤ ω
  autograd : ∀ y : Fin J.arity → Grid Nx Ny ℂ, (∀ k, ‖y k‖ ≤ R) → Spec.Autograd J y
  size : ∀ y : Fin J.arity → Grid Nx Ny ℂ, (∀ k, ‖y k‖ ≤ R) → ∑ k, ∑ i, ∑ j, ‖J.partials k y i j‖ ≤ P
  lip : 0 ≤ P1
  smooth : ∀ y z : Fin J.arity → Grid Nx Ny ℂ, (∀ k, ‖y k‖ ≤ R) → (∀ k, ‖z k‖ ≤ R) → ∑ k, ∑ i, ∑ j, ‖J.partials k y i j - J.partials k z i j‖ ≤ P1 * ‖y - z‖

/-- The objective of the exact Kerr fields, as a function of the density. -/
def Spec.IsKerrObjective (o : Opt Nx Ny) (J : ObjFn Nx Ny) (a : ℝ) (G : Grid Nx Ny ℝ → ℝ) : Prop :=
  ∀ x, Spec.NearBox a x → ∀ Z, Spec.KerrMaxwellEz (Spec.simAt o x) Z → G x = J.eval fun _ => Z

/-- How far from the exact fields the fields of the nonlinear solver may be, with its default settings. -/
noncomputable def Spec.fieldTol (Nx Ny : ℕ) (R : ℝ) : ℝ := 2e-10 * (Real.sqrt (Nx * Ny) * R)

/-- How far from the exact derivatives the computed gradient may be. -/
noncomputable def Spec.gradTol (o : Opt Nx Ny) (m κ1 R ω P P1 : ℝ) : ℝ :=
  o.simulation.omega ^ 2 * EPSILON_0 * o.simulation.L0 * ω / Spec.margin o.simulation m * (3 * ((1 + κ1 * R ^ 2) * R) * P1 + (9 + 13 * κ1 * R ^ 2) * P) * Spec.fieldTol Nx Ny R

/-! ## One solve -/

theorem nlResidual_iff_maxwell (s : Sim Nx Ny) (hv : s.Valid) (hp : s.pol = .Ez) (Z : Grid Nx Ny ℂ) : (∀ i j, Spec.nlResidual s Z i j = 0) ↔ Spec.KerrMaxwellEz s Z := by
  rw [kerrMaxwellEz_iff s hv hp]
  have key : ∀ i j, (bornMat s Z *ᵥ flatten Z) (finProdFinEquiv (i, j)) - s.rhs (finProdFinEquiv (i, j)) = Spec.nlResidual s Z i j := by
    intro i j
    unfold bornMat Spec.nlResidual Sim.rhs
    rw [Matrix.add_mulVec, kerrMat_mulVec]
    simp only [Pi.add_apply, flatten_pair]
    push_cast
    ring
  constructor
  · intro h
    refine flat_ext fun i j => ?_
    have := key i j
    rw [h i j] at this
    exact sub_eq_zero.1 this
  · intro h i j
    rw [← key i j, h, sub_self]

theorem kerrSlope_le {l : List (Nonlinearity Nx Ny)} {κ1 : ℝ} (h : ∀ (e e' : Grid Nx Ny ℂ) i j, ‖Spec.kerrSum l e i j - Spec.kerrSum l e' i j‖ ≤ κ1 * ‖e i j - e' i j‖) (i : Fin Nx) (j : Fin Ny) :
    ‖kerrSlope l i j‖ ≤ κ1 := by
  have h1 := h (fun _ _ => 1) (fun _ _ => 0) i j
  rw [kerrSum_affine l fun _ _ => 1] at h1
  simpa using h1

/-- What the two solves of an objective evaluation leave on a weak device. -/
theorem Spec.WeakKerr.solveAll {s : Sim Nx Ny} {m κ R : ℝ} (h : Spec.WeakKerr s m κ R) {env : Env} (he : env.Exact) (hb : env.backend = .pardiso) (hv : s.Valid) (hp : s.pol = .Ez)
    (hx : 1 < Nx) (hy : 1 < Ny) (hreal : ∀ i j, (Spec.kerrSum s.nonlinearity s.eps_r i j).im = 0) (hq : Spec.bornRate s m κ R ≤ 1 / 2) (hsrc : s.src ≠ 0)
    {Z : Grid Nx Ny ℂ} (hZ : Spec.KerrMaxwellEz s Z) :
    ∃ E G fl fn, Opt.solveAll env false s = (.ok (), { ({ s with fields := fl } : Sim Nx Ny).compute_nl G with fields_nl := fn }) ∧ fn .Ez = some E ∧ ‖Z‖ ≤ R ∧ ‖E‖ ≤ R ∧
      ‖G‖ ≤ 1001 / 1000 * R ∧ ‖E - Z‖ ≤ Spec.fieldTol Nx Ny R ∧ ‖G - Z‖ ≤ Spec.fieldTol Nx Ny R := by
  obtain ⟨t, ht, hst⟩ := solve_fields_Ez env s hp
  set s1 : Sim Nx Ny := { s with fields := Sim.store .Ez s.fields t } with hs1
  have h1 : Spec.WeakKerr s1 m κ R := ⟨h.perm, h.coarse, h.focusing, h.kerr, h.source, h.weak⟩
  have hv1 : s1.Valid := ⟨hv.L0_pos, hv.omega_pos, hv.xr, hv.yr, hv.A_eq, hv.derivs_eq⟩
  have hk1 : Spec.RealKerr s1 m κ := by
    refine ⟨h.perm, h.coarse, fun i j => ⟨(Spec.kerrSum s.nonlinearity s.eps_r i j).re, kerrSum_re _ _ h.focusing i j, (Complex.re_le_norm _).trans (h.kerr i j), ?_⟩⟩
    exact Complex.ext rfl (by rw [Complex.ofReal_im]; exact hreal i j)
  have hZ1 : ∀ i j, Spec.nlResidual s1 Z i j = 0 := (nlResidual_iff_maxwell s hv hp Z).2 hZ
  have hR := h.R_nonneg hv hx hy
  obtain ⟨r, G, fl, fn, hr, hfn, hZR, hE, hG, hd, hd2⟩ := h1.default_near he hb hv1 hp hx hy hk1 hq hsrc (fun e hee i j => by
    have hz : s1.fields .Ez = some (unflatten (solver_direct env s.A s.rhs)) := hst .Ez trivial
    obtain rfl : e = unflatten (solver_direct env s.A s.rhs) := Option.some.inj (hee.symm.trans hz)
    exact (norm_entry_le _ i j).trans (h.linear_bound he hv hp hx hy)) hZ1
  refine ⟨r.Fz, G, fl, fn, ?_, hfn, hZR, hE, hG, hd.trans ?_, hd2⟩
  · unfold Opt.solveAll
    rw [ht]
    simp only [Bool.false_eq_true, if_false]
    rw [hr]
  · unfold Spec.fieldTol
    have hq1 : Spec.bornRate s1 m κ R ≤ 1 / 2 := hq
    have h0 : 0 ≤ Real.sqrt (Nx * Ny) * R := mul_nonneg (Real.sqrt_nonneg _) hR
    refine mul_le_mul_of_nonneg_right ?_ h0
    norm_num at hq1 ⊢
    linarith

/-! ## States -/

/-- A state of the Kerr problem at the density `x`. -/
structure KerrAt (o : Opt Nx Ny) (x : Grid Nx Ny ℝ) (o' : Opt Nx Ny) : Prop where
  at' : StateAt o x o'
  dl : o'.simulation.dl = o.simulation.dl
  nonlin : o'.simulation.nonlinearity = o.simulation.nonlinearity

theorem box_near {a : ℝ} (ha : 0 < a) {x : Grid Nx Ny ℝ} (hx : Spec.Box x) : Spec.NearBox a x := fun i j => ⟨by linarith [(hx i j).1], by linarith [(hx i j).2]⟩

/-- A simulation with the permittivity of a density, up to caches. -/
structure SimFor (o : Opt Nx Ny) (x : Grid Nx Ny ℝ) (s : Sim Nx Ny) : Prop where
  valid : s.Valid
  eps : s.eps_r = fun i j => ((rho2eps x o.eps_m o.W o.eta o.beta i j : ℝ) : ℂ)
  A : s.A = (Spec.simAt o x).A
  derivs : s.derivs = (Spec.simAt o x).derivs
  omega : s.omega = o.simulation.omega
  L0 : s.L0 = o.simulation.L0
  pol : s.pol = o.simulation.pol
  src : s.src = o.simulation.src
  dl : s.dl = o.simulation.dl
  nonlin : s.nonlinearity = o.simulation.nonlinearity

theorem KerrAt.simFor {o o' : Opt Nx Ny} {x : Grid Nx Ny ℝ} (h : KerrAt o x o') : SimFor o x o'.simulation where
  valid := h.at'.valid
  eps := by rw [h.at'.eps, h.at'.same.W, h.at'.same.eps_m, h.at'.same.eta, h.at'.same.beta]
  A := by rw [← (simAt_self h.at'.valid h.at'.eps).1, h.at'.same.simAt_A]
  derivs := by
    rw [← h.at'.same.simAt_derivs, h.at'.valid.derivs_eq]
    exact (h.at'.valid.set_eps_r fun i j => ((rho2eps x o'.eps_m o'.W o'.eta o'.beta i j : ℝ) : ℂ)).derivs_eq.symm
  omega := h.at'.same.omega
  L0 := h.at'.same.L0
  pol := h.at'.same.pol
  src := h.at'.same.src
  dl := h.dl
  nonlin := h.nonlin

theorem simFor_simAt {o : Opt Nx Ny} (hv : o.simulation.Valid) (x : Grid Nx Ny ℝ) : SimFor o x (Spec.simAt o x) :=
  ⟨hv.set_eps_r _, rfl, rfl, rfl, rfl, rfl, rfl, rfl, rfl, rfl⟩

namespace SimFor
variable {o : Opt Nx Ny} {x : Grid Nx Ny ℝ} {s : Sim Nx Ny}

theorem weak (h : SimFor o x s) {m κ R : ℝ} (hw : Spec.WeakKerr (Spec.simAt o x) m κ R) : Spec.WeakKerr s m κ R := by
  have hm : Spec.margin s m = Spec.margin (Spec.simAt o x) m := by
    unfold Spec.margin
    rw [h.omega, h.L0, h.dl]
    rfl
  refine ⟨fun i j => ?_, ?_, fun n hn => ?_, fun i j => ?_, fun i j => ?_, ?_⟩
  · rw [h.eps]; exact hw.perm i j
  · have := hw.coarse
    unfold Spec.Coarse at this ⊢
    rw [h.dl, h.L0, h.omega]
    exact this
  · rw [h.eps]
    rw [h.nonlin] at hn
    exact hw.focusing n hn
  · rw [h.nonlin, h.eps]; exact hw.kerr i j
  · rw [h.omega, h.src, hm]; exact hw.source i j
  · rw [h.omega, h.L0, hm]; exact hw.weak

theorem margin (h : SimFor o x s) (m : ℝ) : Spec.margin s m = Spec.margin o.simulation m := by
  unfold Spec.margin
  rw [h.omega, h.L0, h.dl]

theorem rate (h : SimFor o x s) (m κ R : ℝ) : Spec.bornRate s m κ R = Spec.bornRate o.simulation m κ R := by
  unfold Spec.bornRate
  rw [h.omega, h.L0, h.margin]

theorem maxwell (h : SimFor o x s) (Z : Grid Nx Ny ℂ) : Spec.KerrMaxwellEz s Z ↔ Spec.KerrMaxwellEz (Spec.simAt o x) Z := by
  unfold Spec.KerrMaxwellEz
  rw [h.omega, h.L0, h.derivs, h.nonlin, h.eps, h.src]
  rfl

theorem real (h : SimFor o x s) (i : Fin Nx) (j : Fin Ny) : (Spec.kerrSum s.nonlinearity s.eps_r i j).im = 0 :=
  kerrSum_real s i j (Or.inr (by rw [h.eps]; exact Complex.ofReal_im _))

end SimFor

theorem solveArgFields_of {env : Env} {o' : Opt Nx Ny} {other : Option (Sim Nx Ny)} {s1 : Sim Nx Ny} {fs : List (Grid Nx Ny ℂ)} (hst : o'.fields_current = false)
    (h1 : Opt.solveAll env o'.objective.isLinear (o'.target other) = (.ok (), s1)) (h2 : Opt.collect s1 o'.objective.arg_list = .ok fs) :
    Opt.solveArgFields env o' other = (.ok (), { (o'.putTarget other s1).1 with field_arg_list := some fs, fields_current := true }, (o'.putTarget other s1).2) := by
  unfold Opt.solveArgFields
  rw [if_pos (Or.inl hst), h1]
  simp only [h2]

namespace Spec.KerrProblem
variable {o : Opt Nx Ny} {J : ObjFn Nx Ny} {args : List ObjArg} {m κ κ1 R ω P P1 a : ℝ}

theorem len (h : Spec.KerrProblem o J args m κ κ1 R ω P P1 a) : args.length = J.arity := (objective_init_ok h.obj).1

theorem arg_nl (h : Spec.KerrProblem o J args m κ κ1 R ω P P1 a) {b : ObjArg} (hb : b ∈ args) : b.nl = true ∧ b.component = .Ez := by
  have h1 := h.kinds b hb
  cases h1
  exact ⟨rfl, rfl⟩

theorem notLinear (h : Spec.KerrProblem o J args m κ κ1 R ω P P1 a) : (Objective.mk' J args).isLinear = false := by
  rw [← Bool.not_eq_true, isLinear_iff]
  intro hl
  obtain ⟨b, hb⟩ := List.exists_mem_of_ne_nil _ h.nonempty
  have h1 := hl b hb
  rw [(h.arg_nl hb).1] at h1
  cases h1

theorem collect (h : Spec.KerrProblem o J args m κ κ1 R ω P P1 a) {s : Sim Nx Ny} {E : Grid Nx Ny ℂ} (hs : s.fields_nl .Ez = some E) : Opt.collect s args = .ok (args.map fun _ => E) :=
  collect_ok s (fun _ => E) args fun b hb => by
    rw [(h.arg_nl hb).1, (h.arg_nl hb).2]
    exact hs

theorem call (h : Spec.KerrProblem o J args m κ κ1 R ω P P1 a) (E : Grid Nx Ny ℂ) : J.call (args.map fun _ => E) = .ok (J.eval fun _ => E) := by
  unfold ObjFn.call
  rw [dif_pos (by rw [List.length_map, h.len])]
  congr 2
  funext k
  simp

/-- The exact Kerr solution of a density. -/
theorem exists_solution (h : Spec.KerrProblem o J args m κ κ1 R ω P P1 a) (hx : 1 < Nx) (hy : 1 < Ny) {x : Grid Nx Ny ℝ} (hb : Spec.NearBox a x) :
    ∃ Z, Spec.KerrMaxwellEz (Spec.simAt o x) Z ∧ ‖Z‖ ≤ R ∧ ∀ W, Spec.KerrMaxwellEz (Spec.simAt o x) W → W = Z := by
  have hv : (Spec.simAt o x).Valid := h.valid.set_eps_r _
  have hp : (Spec.simAt o x).pol = .Ez := h.pol
  obtain ⟨Z, h1, h2, h3⟩ := C76_unique_solution _ hv hp hx hy m κ R (h.weak x hb)
  have hR := (h.weak x hb).R_nonneg hv hx hy
  exact ⟨Z, (nlResidual_iff_maxwell _ hv hp Z).1 h1, (pi_norm_le_iff_of_nonneg hR).2 fun i => (pi_norm_le_iff_of_nonneg hR).2 fun j => h2 i j, fun W hW =>
    h3 W ((nlResidual_iff_maxwell _ hv hp W).2 hW)⟩

/-- The objective of the exact fields is well defined. -/
theorem exists_objective (h : Spec.KerrProblem o J args m κ κ1 R ω P P1 a) (hx : 1 < Nx) (hy : 1 < Ny) : ∃ G, Spec.IsKerrObjective o J a G := by
  classical
  refine ⟨fun x => if hb : Spec.NearBox a x then J.eval fun _ => (h.exists_solution hx hy hb).choose else 0, fun x hb Z hZ => ?_⟩
  simp only [dif_pos hb]
  rw [(h.exists_solution hx hy hb).choose_spec.2.2 Z hZ]

/-- The solves of an evaluation, for a simulation with the permittivity of a density. -/
theorem solve (h : Spec.KerrProblem o J args m κ κ1 R ω P P1 a) {env : Env} (he : env.Exact) (hb : env.backend = .pardiso) (hx : 1 < Nx) (hy : 1 < Ny) {x : Grid Nx Ny ℝ} (hbx : Spec.NearBox a x)
    {s : Sim Nx Ny} (hs : SimFor o x s) {Z : Grid Nx Ny ℂ} (hZ : Spec.KerrMaxwellEz (Spec.simAt o x) Z) :
    ∃ E G fl fn, Opt.solveAll env false s = (.ok (), { ({ s with fields := fl } : Sim Nx Ny).compute_nl G with fields_nl := fn }) ∧ fn .Ez = some E ∧ ‖Z‖ ≤ R ∧ ‖E‖ ≤ R ∧
      ‖G‖ ≤ 1001 / 1000 * R ∧ ‖E - Z‖ ≤ Spec.fieldTol Nx Ny R ∧ ‖G - Z‖ ≤ Spec.fieldTol Nx Ny R :=
  (hs.weak (h.weak x hbx)).solveAll he hb hs.valid (hs.pol.trans h.pol) hx hy hs.real (by rw [hs.rate]; exact h.rate) (by rw [hs.src]; exact h.source) ((hs.maxwell Z).2 hZ)

/-- The state after the fields have been computed. -/
theorem solveArgFields (h : Spec.KerrProblem o J args m κ κ1 R ω P P1 a) {env : Env} (he : env.Exact) (hb : env.backend = .pardiso) (hx : 1 < Nx) (hy : 1 < Ny) {x : Grid Nx Ny ℝ}
    (hbx : Spec.NearBox a x) {o' : Opt Nx Ny} (ho : o'.objective = o.objective) (hst : o'.fields_current = false) (hs : SimFor o x o'.simulation) {Z : Grid Nx Ny ℂ}
    (hZ : Spec.KerrMaxwellEz (Spec.simAt o x) Z) :
    ∃ E G fl fn s', s' = { ({ o'.simulation with fields := fl } : Sim Nx Ny).compute_nl G with fields_nl := fn } ∧
      Opt.solveArgFields env o' none = (.ok (), { o' with simulation := s', field_arg_list := some (args.map fun _ => E), fields_current := true }, none) ∧
      fn .Ez = some E ∧ ‖Z‖ ≤ R ∧ ‖E‖ ≤ R ∧ ‖G‖ ≤ 1001 / 1000 * R ∧ ‖E - Z‖ ≤ Spec.fieldTol Nx Ny R ∧ ‖G - Z‖ ≤ Spec.fieldTol Nx Ny R := by
  obtain ⟨E, G, fl, fn, h1, h2, h3⟩ := h.solve he hb hx hy hbx hs hZ
  refine ⟨E, G, fl, fn, _, rfl, ?_, h2, h3⟩
  have hmk : o'.objective = Objective.mk' J args := ho.trans (objective_init_ok h.obj).2
  exact solveArgFields_of (other := none) hst (by rw [hmk, h.notLinear]; exact h1) (by rw [hmk]; exact h.collect (E := E) h2)

/-- The same for another simulation. -/
theorem solveArgFields_other (h : Spec.KerrProblem o J args m κ κ1 R ω P P1 a) {env : Env} (he : env.Exact) (hb : env.backend = .pardiso) (hx : 1 < Nx) (hy : 1 < Ny) {x : Grid Nx Ny ℝ}
    (hbx : Spec.NearBox a x) {o' : Opt Nx Ny} (ho : o'.objective = o.objective) (hst : o'.fields_current = false) {s : Sim Nx Ny} (hs : SimFor o x s) {Z : Grid Nx Ny ℂ}
    (hZ : Spec.KerrMaxwellEz (Spec.simAt o x) Z) :
    ∃ E s', Opt.solveArgFields env o' (some s) = (.ok (), { o' with field_arg_list := some (args.map fun _ => E), fields_current := true }, some s') ∧
      ‖Z‖ ≤ R ∧ ‖E‖ ≤ R ∧ ‖E - Z‖ ≤ Spec.fieldTol Nx Ny R := by
  obtain ⟨E, G, fl, fn, h1, h2, h3, h4, -, h5, -⟩ := h.solve he hb hx hy hbx hs hZ
  refine ⟨E, { ({ s with fields := fl } : Sim Nx Ny).compute_nl G with fields_nl := fn }, ?_, h3, h4, h5⟩
  have hmk : o'.objective = Objective.mk' J args := ho.trans (objective_init_ok h.obj).2
  exact solveArgFields_of (other := some s) hst (by rw [hmk, h.notLinear]; exact h1) (by rw [hmk]; exact h.collect (E := E) h2)

/-- The objective changes by at most `P` times the change of the fields. -/
theorem value_error (h : Spec.KerrProblem o J args m κ κ1 R ω P P1 a) {y z : Fin J.arity → Grid Nx Ny ℂ} (hR : 0 ≤ R) (hy : ∀ k, ‖y k‖ ≤ R) (hz : ∀ k, ‖z k‖ ≤ R) :
    |J.eval y - J.eval z| ≤ P * ‖y - z‖ := by
  have hball : ∀ w : Fin J.arity → Grid Nx Ny ℂ, w ∈ Metric.closedBall (0 : Fin J.arity → Grid Nx Ny ℂ) R ↔ ∀ k, ‖w k‖ ≤ R := fun w => by
    rw [mem_closedBall_zero_iff]
    exact pi_norm_le_iff_of_nonneg hR
  choose! L hL1 hL2 using fun w (hw : w ∈ Metric.closedBall (0 : Fin J.arity → Grid Nx Ny ℂ) R) => h.autograd w ((hball w).1 hw)
  have hbd : ∀ w ∈ Metric.closedBall (0 : Fin J.arity → Grid Nx Ny ℂ) R, ‖L w‖ ≤ P := by
    intro w hw
    have hs := h.size w ((hball w).1 hw)
    have hP : 0 ≤ P := (Finset.sum_nonneg fun _ _ => Finset.sum_nonneg fun _ _ => Finset.sum_nonneg fun _ _ => norm_nonneg _).trans hs
    refine ContinuousLinearMap.opNorm_le_bound _ hP fun δ => ?_
    rw [hL1 w hw δ, Real.norm_eq_abs]
    calc |∑ k, ∑ i, ∑ j, (J.partials k w i j * δ k i j).re| ≤ ∑ k, ∑ i, ∑ j, ‖J.partials k w i j‖ * ‖δ‖ := by
          refine (Finset.abs_sum_le_sum_abs _ _).trans (Finset.sum_le_sum fun k _ => (Finset.abs_sum_le_sum_abs _ _).trans (Finset.sum_le_sum fun i _ =>
            (Finset.abs_sum_le_sum_abs _ _).trans (Finset.sum_le_sum fun j _ => (Complex.abs_re_le_norm _).trans ?_)))
          rw [norm_mul]
          exact mul_le_mul_of_nonneg_left ((norm_entry_le (δ k) i j).trans (norm_le_pi_norm δ k)) (norm_nonneg _)
      _ = (∑ k, ∑ i, ∑ j, ‖J.partials k w i j‖) * ‖δ‖ := by simp only [Finset.sum_mul]
      _ ≤ P * ‖δ‖ := mul_le_mul_of_nonneg_right hs (norm_nonneg _)
  have := (convex_closedBall (0 : Fin J.arity → Grid Nx Ny ℂ) R).norm_image_sub_le_of_norm_hasFDerivWithin_le (fun w hw => (hL2 w hw).hasFDerivWithinAt) hbd ((hball z).2 hz) ((hball y).2 hy)
  rwa [Real.norm_eq_abs] at this

end Spec.KerrProblem

end Angler
