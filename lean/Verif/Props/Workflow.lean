import Verif.Model.OptInit
import Verif.Props.AdamAscent

/-! # C87: from the user's inputs to the recorded values -/

namespace Angler

open Matrix Filter Topology

variable {Nx Ny : ℕ}

/-! ## The discrete Maxwell equations and the matrix -/

/-- The three grid equations are equivalent to the linear system for `Ez`, with `Hx` and `Hy` computed from it. -/
theorem maxwellEz_iff (s : Sim Nx Ny) (hv : s.Valid) (hp : s.pol = .Ez) (hx : 1 < Nx) (hy : 1 < Ny) (src Hx Hy Ez : Grid Nx Ny ℂ) :
    Spec.MaxwellEz s.omega (MU_0 * s.L0) s.dl
        (create_sfactor (0, Nx * s.dl) s.L0 .f s.omega Nx s.NPML.1) (create_sfactor (0, Nx * s.dl) s.L0 .b s.omega Nx s.NPML.1)
        (create_sfactor (0, Ny * s.dl) s.L0 .f s.omega Ny s.NPML.2) (create_sfactor (0, Ny * s.dl) s.L0 .b s.omega Ny s.NPML.2)
        (fun i j => (EPSILON_0 * s.L0 : ℝ) * s.eps_r i j) src Hx Hy Ez ↔
      (s.A *ᵥ flatten Ez = fun k => flatten src k * Complex.I * (s.omega : ℂ)) ∧ Hx = linField s (flatten Ez) .Hx ∧ Hy = linField s (flatten Ez) .Hy := by
  have ho : (s.omega : ℂ) ≠ 0 := by exact_mod_cast hv.omega_pos.ne'
  have hM : ((MU_0 * s.L0 : ℝ) : ℂ) ≠ 0 := by exact_mod_cast (mul_pos MU_0_pos hv.L0_pos).ne'
  have hI := Complex.I_ne_zero
  have hAe : s.A = (1 / ((MU_0 * s.L0 : ℝ) : ℂ)) • (s.derivs.Dxf * s.derivs.Dxb) + (1 / ((MU_0 * s.L0 : ℝ) : ℂ)) • (s.derivs.Dyf * s.derivs.Dyb)
      + ((s.omega : ℂ) ^ 2) • spdiag (fun k => ((EPSILON_0 * s.L0 : ℝ) : ℂ) * flatten s.eps_r k) := by
    rw [hv.derivs_eq]
    exact hv.A_eq.trans (by rw [hp]; rfl)
  have hyb : ∀ f : Grid Nx Ny ℂ, s.derivs.Dyb *ᵥ flatten f = flatten fun i j => Spec.bwdY s.dl f i j / create_sfactor (0, Ny * s.dl) s.L0 .b s.omega Ny s.NPML.2 j := by
    intro f
    rw [hv.derivs_eq, mkDerivs_Dyb _ _ _ _ _ hy, hv.dL_eq (by omega) (by omega), hv.yr]
  have hxb : ∀ f : Grid Nx Ny ℂ, s.derivs.Dxb *ᵥ flatten f = flatten fun i j => Spec.bwdX s.dl f i j / create_sfactor (0, Nx * s.dl) s.L0 .b s.omega Nx s.NPML.1 i := by
    intro f
    rw [hv.derivs_eq, mkDerivs_Dxb _ _ _ _ _ hx, hv.dL_eq (by omega) (by omega), hv.xr]
  have hyf : ∀ f : Grid Nx Ny ℂ, s.derivs.Dyf *ᵥ flatten f = flatten fun i j => Spec.fwdY s.dl f i j / create_sfactor (0, Ny * s.dl) s.L0 .f s.omega Ny s.NPML.2 j := by
    intro f
    rw [hv.derivs_eq, mkDerivs_Dyf _ _ _ _ _ hy, hv.dL_eq (by omega) (by omega), hv.yr]
  have hxf : ∀ f : Grid Nx Ny ℂ, s.derivs.Dxf *ᵥ flatten f = flatten fun i j => Spec.fwdX s.dl f i j / create_sfactor (0, Nx * s.dl) s.L0 .f s.omega Nx s.NPML.1 i := by
    intro f
    rw [hv.derivs_eq, mkDerivs_Dxf _ _ _ _ _ hx, hv.dL_eq (by omega) (by omega), hv.xr]
  have hHx : (∀ i j, Complex.I * s.omega * ((MU_0 * s.L0 : ℝ) : ℂ) * Hx i j = -(Spec.bwdY s.dl Ez i j / create_sfactor (0, Ny * s.dl) s.L0 .b s.omega Ny s.NPML.2 j)) ↔ Hx = linField s (flatten Ez) .Hx := by
    have e : linField s (flatten Ez) .Hx = fun i j => (-1 / Complex.I / (s.omega : ℂ) / ((MU_0 * s.L0 : ℝ) : ℂ)) * (Spec.bwdY s.dl Ez i j / create_sfactor (0, Ny * s.dl) s.L0 .b s.omega Ny s.NPML.2 j) := by
      show (unflatten ((-1 / Complex.I / (s.omega : ℂ) / ((MU_0 * s.L0 : ℝ) : ℂ)) • (s.derivs.Dyb *ᵥ flatten Ez)) : Grid Nx Ny ℂ) = _
      rw [hyb]
      funext i j
      exact congrArg ((-1 / Complex.I / (s.omega : ℂ) / ((MU_0 * s.L0 : ℝ) : ℂ)) * ·) (flatten_pair _ i j)
    rw [e]
    constructor
    · intro h
      funext i j
      rw [← neg_eq_iff_eq_neg.2 (h i j)]
      field_simp
    · intro h i j
      rw [h]
      field_simp
  have hHy : (∀ i j, Complex.I * s.omega * ((MU_0 * s.L0 : ℝ) : ℂ) * Hy i j = Spec.bwdX s.dl Ez i j / create_sfactor (0, Nx * s.dl) s.L0 .b s.omega Nx s.NPML.1 i) ↔ Hy = linField s (flatten Ez) .Hy := by
    have e : linField s (flatten Ez) .Hy = fun i j => (1 / Complex.I / (s.omega : ℂ) / ((MU_0 * s.L0 : ℝ) : ℂ)) * (Spec.bwdX s.dl Ez i j / create_sfactor (0, Nx * s.dl) s.L0 .b s.omega Nx s.NPML.1 i) := by
      show (unflatten ((1 / Complex.I / (s.omega : ℂ) / ((MU_0 * s.L0 : ℝ) : ℂ)) • (s.derivs.Dxb *ᵥ flatten Ez)) : Grid Nx Ny ℂ) = _
      rw [hxb]
      funext i j
      exact congrArg ((1 / Complex.I / (s.omega : ℂ) / ((MU_0 * s.L0 : ℝ) : ℂ)) * ·) (flatten_pair _ i j)
    rw [e]
    constructor
    · intro h
      funext i j
      rw [← h i j]
      field_simp
    · intro h i j
      rw [h]
      field_simp
  have hA : Hx = linField s (flatten Ez) .Hx → Hy = linField s (flatten Ez) .Hy → ((∀ i j, Spec.fwdX s.dl Hy i j / create_sfactor (0, Nx * s.dl) s.L0 .f s.omega Nx s.NPML.1 i -
      Spec.fwdY s.dl Hx i j / create_sfactor (0, Ny * s.dl) s.L0 .f s.omega Ny s.NPML.2 j - Complex.I * s.omega * ((EPSILON_0 * s.L0 : ℝ) * s.eps_r i j) * Ez i j = src i j) ↔
      s.A *ᵥ flatten Ez = fun k => flatten src k * Complex.I * (s.omega : ℂ)) := by
    intro e1 e2
    have key : ∀ i j, (s.A *ᵥ flatten Ez) (finProdFinEquiv (i, j)) = Complex.I * s.omega * (Spec.fwdX s.dl Hy i j / create_sfactor (0, Nx * s.dl) s.L0 .f s.omega Nx s.NPML.1 i -
      Spec.fwdY s.dl Hx i j / create_sfactor (0, Ny * s.dl) s.L0 .f s.omega Ny s.NPML.2 j - Complex.I * s.omega * ((EPSILON_0 * s.L0 : ℝ) * s.eps_r i j) * Ez i j) := by
      intro i j
      have a1 : Spec.fwdX s.dl Hy i j / create_sfactor (0, Nx * s.dl) s.L0 .f s.omega Nx s.NPML.1 i = (s.derivs.Dxf *ᵥ flatten Hy) (finProdFinEquiv (i, j)) := by rw [hxf, flatten_pair]
      have a2 : Spec.fwdY s.dl Hx i j / create_sfactor (0, Ny * s.dl) s.L0 .f s.omega Ny s.NPML.2 j = (s.derivs.Dyf *ᵥ flatten Hx) (finProdFinEquiv (i, j)) := by rw [hyf, flatten_pair]
      have f1 : flatten Hx = (-1 / Complex.I / (s.omega : ℂ) / ((MU_0 * s.L0 : ℝ) : ℂ)) • (s.derivs.Dyb *ᵥ flatten Ez) := by rw [e1]; exact flatten_unflatten _
      have f2 : flatten Hy = (1 / Complex.I / (s.omega : ℂ) / ((MU_0 * s.L0 : ℝ) : ℂ)) • (s.derivs.Dxb *ᵥ flatten Ez) := by rw [e2]; exact flatten_unflatten _
      rw [a1, a2, f1, f2, hAe, Matrix.mulVec_smul, Matrix.mulVec_smul, Matrix.mulVec_mulVec, Matrix.mulVec_mulVec]
      simp only [Matrix.add_mulVec, smul_mulVec, spdiag_mulVec, Pi.add_apply, Pi.smul_apply, smul_eq_mul, flatten_pair]
      field_simp
      rw [Complex.I_sq]
      ring
    constructor
    · intro h
      refine flat_ext fun i j => ?_
      rw [key, h i j, flatten_pair]
      ring
    · intro h i j
      have h1 := key i j
      rw [h] at h1
      beta_reduce at h1
      rw [flatten_pair] at h1
      have h2 : Complex.I * (s.omega : ℂ) ≠ 0 := mul_ne_zero hI ho
      refine mul_left_cancel₀ h2 ?_
      rw [← h1]
      ring
  constructor
  · intro h
    have e1 := hHx.1 fun i j => (h i j).1
    have e2 := hHy.1 fun i j => (h i j).2.1
    exact ⟨(hA e1 e2).1 fun i j => (h i j).2.2, e1, e2⟩
  · rintro ⟨h, e1, e2⟩ i j
    exact ⟨hHx.2 e1 i j, hHy.2 e2 i j, (hA e1 e2).2 h i j⟩

/-! ## The script and what it should do -/

/-- What the user chooses: frequency, grid spacing, length unit, absorbing layers, permittivity of the material, sharpness of the projection, source. -/
structure Spec.Device (Nx Ny : ℕ) where
  omega : ℝ
  dl : ℝ
  L0 : ℝ
  npml : ℕ × ℕ
  eps_m : ℝ
  beta : ℝ
  src : Grid Nx Ny ℂ

/-- The smoothed step from 0 to 1 around 1/2. -/
noncomputable def Spec.project (beta t : ℝ) : ℝ := (Real.tanh (beta / 2) + Real.tanh (beta * (t - 1 / 2))) / (2 * Real.tanh (beta / 2))

/-- `Hx, Hy, Ez` solve the discrete Maxwell equations in the device with density `x`, with source `src`. -/
def Spec.Device.Solves (d : Spec.Device Nx Ny) (x : Grid Nx Ny ℝ) (src Hx Hy Ez : Grid Nx Ny ℂ) : Prop :=
  Spec.MaxwellEz d.omega (MU_0 * d.L0) d.dl
    (create_sfactor (0, Nx * d.dl) d.L0 .f d.omega Nx d.npml.1) (create_sfactor (0, Nx * d.dl) d.L0 .b d.omega Nx d.npml.1)
    (create_sfactor (0, Ny * d.dl) d.L0 .f d.omega Ny d.npml.2) (create_sfactor (0, Ny * d.dl) d.L0 .b d.omega Ny d.npml.2)
    (fun i j => (EPSILON_0 * d.L0 : ℝ) * ((1 + Spec.project d.beta (x i j) * (d.eps_m - 1) : ℝ) : ℂ)) src Hx Hy Ez

/-- Without a source there is no field. -/
def Spec.Device.Regular (d : Spec.Device Nx Ny) (x : Grid Nx Ny ℝ) : Prop := ∀ Hx Hy Ez, d.Solves x (fun _ _ => 0) Hx Hy Ez → Ez = fun _ _ => 0

/-- The field with a given name. -/
def Spec.pick (Hx Hy Ez : Grid Nx Ny ℂ) (c : String) : Grid Nx Ny ℂ := if c = "Hx" then Hx else if c = "Hy" then Hy else Ez

/-- `F` is the user's function `J` of the fields named `comps`, as a function of the density. -/
def Spec.Device.IsValue (d : Spec.Device Nx Ny) (J : ObjFn Nx Ny) (comps : List String) (hlen : comps.length = J.arity) (F : Grid Nx Ny ℝ → ℝ) : Prop :=
  ∀ x, d.Regular x → ∀ Hx Hy Ez, d.Solves x d.src Hx Hy Ez → F x = J.eval fun k => Spec.pick Hx Hy Ez (comps.get (k.cast hlen.symm))

/-- The density at the start: as `style` says in the design region, given by the two materials outside. -/
noncomputable def Spec.startDensity (bg : Grid Nx Ny ℂ) (design : Grid Nx Ny ℝ) (style : Style) : Grid Nx Ny ℝ := fun i j =>
  open Classical in if design i j = 1 then (match style with | .full => 1 | .halfway => 1 / 2 | _ => 0) else if bg i j = 1 then 0 else 1

/-- The user's script, as in the README: make a simulation, set the source, initialise the design region, make the objective and the optimization (no filter, projection centred at 1/2). -/
noncomputable def script (d : Spec.Device Nx Ny) (bg : Grid Nx Ny ℂ) (design : Grid Nx Ny ℝ) (style : Style) (draw : Grid Nx Ny ℝ) (J : ObjFn Nx Ny) (comps : List String) :
    Except PyErr (Opt Nx Ny) := do
  let s ← Sim.init d.omega bg d.dl (.list [d.npml.1, d.npml.2]) "Ez" d.L0
  let s1 := ({ s with src := d.src } : Sim Nx Ny).init_design_region design d.eps_m style draw
  let args ← comps.mapM fun c => ObjArg.init c false
  let ob ← Objective.init J args
  Opt.init ob s1 design d.eps_m none (1 / 2) d.beta none

theorem mapM_ok {α β : Type} {f : α → Except PyErr β} {l : List α} (h : ∀ c ∈ l, ∃ b, f c = .ok b) : ∃ bs, l.mapM f = .ok bs ∧ List.Forall₂ (fun c b => f c = .ok b) l bs := by
  induction l with
  | nil => exact ⟨[], rfl, List.Forall₂.nil⟩
  | cons c l ih =>
    obtain ⟨b, hb⟩ := h c (by simp)
    obtain ⟨bs, h1, h2⟩ := ih fun c hc => h c (by simp [hc])
    refine ⟨b :: bs, ?_, List.Forall₂.cons hb h2⟩
    rw [List.mapM_cons, hb, h1]
    rfl

theorem project_eq (beta t : ℝ) : rhot2rhob t (1 / 2) beta = Spec.project beta t := by
  unfold rhot2rhob Spec.project
  have e : (1 : ℝ) - 1 / 2 = 1 / 2 := by norm_num
  simp only [e, mul_one_div]
  rw [two_mul]

/-- The Ez fields of a name. -/
theorem linField_pick (s : Sim Nx Ny) (X : Vec (Nx * Ny) ℂ) {c : String} (hc : c ∈ ["Ez", "Hx", "Hy"]) {a : ObjArg} (ha : ObjArg.init c false = .ok a) :
    linField s X a.component = Spec.pick (linField s X .Hx) (linField s X .Hy) (unflatten X) c := by
  fin_cases hc
  · cases ha; rfl
  · cases ha; rfl
  · cases ha; rfl

theorem gdPath_congr {F G : Grid Nx Ny ℝ → ℝ} {design : Grid Nx Ny ℝ} (h : ∀ x, Spec.Box x → ∀ i j, Spec.partials F x i j = Spec.partials G x i j) (s : ℝ) {x : Grid Nx Ny ℝ} (hx : Spec.Box x) (k : ℕ) :
    Spec.gdPath F design s x k = Spec.gdPath G design s x k := by
  induction k with
  | zero => rfl
  | succ k ih =>
    show Spec.move design (Spec.gdPath F design s x k) _ = Spec.move design (Spec.gdPath G design s x k) _
    rw [ih]
    exact move_congr fun i j _ => by rw [h _ (box_gdPath G design s hx k)]

theorem adamPath_congr {F G : Grid Nx Ny ℝ → ℝ} {design : Grid Nx Ny ℝ} (h : ∀ x, Spec.Box x → ∀ i j, Spec.partials F x i j = Spec.partials G x i j) {s b1 b2 : ℝ} {r : ℕ → Grid Nx Ny ℝ}
    (hb : ∀ k, Spec.Box (r k)) (hr : Spec.AdamPath G design s b1 b2 r) : Spec.AdamPath F design s b1 b2 r := by
  have e : (fun m => Spec.partials F (r m)) = fun m => Spec.partials G (r m) := by
    funext m i j
    exact h _ (hb m) i j
  intro k
  rw [hr k, e]

/-! ## The state the script leaves -/

/-- The simulation made by the script. -/
noncomputable def Spec.Device.sim (d : Spec.Device Nx Ny) (bg : Grid Nx Ny ℂ) : Sim Nx Ny :=
  ({ L0 := d.L0, omega := d.omega, dl := d.dl, NPML := d.npml, pol := .Ez, xrange := (0, Nx * d.dl), yrange := (0, Ny * d.dl), src := d.src, eps_r := bg, A := 0, derivs := ⟨0, 0, 0, 0⟩,
     fields := fun _ => none, fields_nl := fun _ => none, nonlinearity := [], eps_nl := fun _ _ => 0, dnl_de := fun _ _ => 0, dnl_deps := fun _ _ => 0, Anl := none, rho := none } : Sim Nx Ny).set_eps_r bg

/-- The optimization made by the script. -/
noncomputable def Spec.Device.opt (d : Spec.Device Nx Ny) (bg : Grid Nx Ny ℂ) (design : Grid Nx Ny ℝ) (style : Style) (draw : Grid Nx Ny ℝ) (J : ObjFn Nx Ny) (args : List ObjArg) : Opt Nx Ny :=
  { objective := Objective.mk' J args, simulation := (d.sim bg).init_design_region design d.eps_m style draw, design_region := design, W := 1, eps_m := d.eps_m, eta := 1 / 2, beta := d.beta,
    max_ind_shift := none, src_amplitudes := [], objfn_list := [], fields_current := false, field_arg_list := none }

namespace Spec.Device

theorem sim_valid (d : Spec.Device Nx Ny) (hL : 0 < d.L0) (ho : 0 < d.omega) (bg : Grid Nx Ny ℂ) : (d.sim bg).Valid := ⟨hL, ho, rfl, rfl, rfl, rfl⟩

theorem opt_valid (d : Spec.Device Nx Ny) (hL : 0 < d.L0) (ho : 0 < d.omega) (bg : Grid Nx Ny ℂ) (design : Grid Nx Ny ℝ) (style : Style) (draw : Grid Nx Ny ℝ) (J : ObjFn Nx Ny) (args : List ObjArg) :
    (d.opt bg design style draw J args).simulation.Valid := by
  cases style <;> exact ⟨hL, ho, rfl, rfl, rfl, rfl⟩

theorem script_eq (d : Spec.Device Nx Ny) (hL : 0 < d.L0) (ho : 0 < d.omega) (bg : Grid Nx Ny ℂ) (design : Grid Nx Ny ℝ) (style : Style) (draw : Grid Nx Ny ℝ) (J : ObjFn Nx Ny) (comps : List String)
    (args : List ObjArg) (ha : (comps.mapM fun c => ObjArg.init c false) = .ok args) (hlen : args.length = J.arity) : script d bg design style draw J comps = .ok (d.opt bg design style draw J args) := by
  have hc : Sim.check_inputs d.omega d.L0 (.list [(d.npml.1 : ℝ), (d.npml.2 : ℝ)]) "Ez" = .ok (((d.npml.1 : ℝ), (d.npml.2 : ℝ)), .Ez) := by
    unfold Sim.check_inputs
    rw [if_neg (not_not.2 hL), if_neg (not_not.2 ho)]
    simp
  have hob : Objective.init J args = .ok (Objective.mk' J args) := by
    unfold Objective.init
    rw [if_neg (not_not.2 hlen)]
  unfold script Sim.init
  rw [hc, ha]
  simp only [Bind.bind, Except.bind, hob, Nat.floor_natCast]
  cases style <;> rfl

variable (d : Spec.Device Nx Ny) (bg : Grid Nx Ny ℂ) (design : Grid Nx Ny ℝ) (style : Style) (draw : Grid Nx Ny ℝ) (J : ObjFn Nx Ny) (args : List ObjArg)

/-- The equations of the device are those of the simulations of the optimization. -/
theorem solves_iff (hL : 0 < d.L0) (ho : 0 < d.omega) (hx : 1 < Nx) (hy : 1 < Ny) (x : Grid Nx Ny ℝ) (src Hx Hy Ez : Grid Nx Ny ℂ) :
    d.Solves x src Hx Hy Ez ↔ ((Spec.simAt (d.opt bg design style draw J args) x).A *ᵥ flatten Ez = fun k => flatten src k * Complex.I * (d.omega : ℂ)) ∧
      Hx = linField (Spec.simAt (d.opt bg design style draw J args) x) (flatten Ez) .Hx ∧ Hy = linField (Spec.simAt (d.opt bg design style draw J args) x) (flatten Ez) .Hy := by
  have hv := (d.opt_valid hL ho bg design style draw J args).set_eps_r fun i j => ((rho2eps x d.eps_m 1 (1 / 2) d.beta i j : ℝ) : ℂ)
  have hp : (Spec.simAt (d.opt bg design style draw J args) x).pol = .Ez := by cases style <;> rfl
  have h := maxwellEz_iff (Spec.simAt (d.opt bg design style draw J args) x) hv hp hx hy src Hx Hy Ez
  have e : (fun i j => ((EPSILON_0 * d.L0 : ℝ) : ℂ) * ((1 + Spec.project d.beta (x i j) * (d.eps_m - 1) : ℝ) : ℂ)) =
      fun i j => ((EPSILON_0 * d.L0 : ℝ) : ℂ) * ((rho2eps x d.eps_m 1 (1 / 2) d.beta i j : ℝ) : ℂ) := by
    funext i j
    unfold rho2eps rhob2eps
    simp only [rho2rhot_one, project_eq]
  unfold Spec.Device.Solves
  rw [e]
  cases style <;> exact h

theorem regular_iff (hL : 0 < d.L0) (ho : 0 < d.omega) (hx : 1 < Nx) (hy : 1 < Ny) (x : Grid Nx Ny ℝ) : d.Regular x ↔ (Spec.simAt (d.opt bg design style draw J args) x).A.det ≠ 0 := by
  have e0 : (fun k => flatten (fun _ _ => 0 : Grid Nx Ny ℂ) k * Complex.I * (d.omega : ℂ)) = 0 := by
    funext k
    show (0 : ℂ) * _ * _ = 0
    ring
  constructor
  · intro h
    refine det_ne_zero_of_inj fun v hv => ?_
    have h1 := h _ _ (unflatten v) ((d.solves_iff bg design style draw J args hL ho hx hy x _ _ _ _).2 ⟨by rw [flatten_unflatten, hv, e0], rfl, rfl⟩)
    rw [← flatten_unflatten (Nx := Nx) (Ny := Ny) v, h1]
    rfl
  · intro h Hx Hy Ez hs
    have h1 := ((d.solves_iff bg design style draw J args hL ho hx hy x _ _ _ _).1 hs).1
    rw [e0] at h1
    have h2 := mulVec_unique h (h1.trans (Matrix.mulVec_zero _).symm)
    funext i j
    have := congrFun h2 (finProdFinEquiv (i, j))
    rwa [flatten_pair] at this

theorem start_rho (hm : 1 < d.eps_m) (hst : style = .full ∨ style = .halfway ∨ style = .empty) (hbg : ∀ i j, design i j ≠ 1 → bg i j = 1 ∨ bg i j = d.eps_m) :
    (d.opt bg design style draw J args).simulation.rho = some (some (Spec.startDensity bg design style)) := by
  have hne : d.eps_m - 1 ≠ 0 := by linarith
  show some (some fun i j => eps2rho (((d.sim bg).init_design_region design d.eps_m style draw).eps_r i j).re d.eps_m) = _
  congr 2
  funext i j
  unfold Spec.startDensity eps2rho
  by_cases hd : design i j = 1
  · rw [if_pos hd]
    rcases hst with rfl | rfl | rfl
    · simp only [Sim.init_design_region, designEps, Sim.set_eps_r, if_pos hd, Complex.ofReal_re]
      exact div_self hne
    · simp only [Sim.init_design_region, designEps, Sim.set_eps_r, if_pos hd, Complex.ofReal_re]
      rw [show d.eps_m / 2 + 1 / 2 - 1 = 1 / 2 * (d.eps_m - 1) by ring, mul_div_cancel_right₀ _ hne]
    · simp only [Sim.init_design_region, designEps, Sim.set_eps_r, if_pos hd, Complex.one_re, sub_self, zero_div]
  · rw [if_neg hd]
    have e : ((d.sim bg).init_design_region design d.eps_m style draw).eps_r i j = bg i j := by
      rcases hst with rfl | rfl | rfl <;> simp only [Sim.init_design_region, designEps, Sim.set_eps_r, if_neg hd, Spec.Device.sim]
    rw [e]
    by_cases h1 : bg i j = 1
    · rw [if_pos h1, h1, Complex.one_re, sub_self, zero_div]
    · rw [if_neg h1, (hbg i j hd).resolve_left h1, Complex.ofReal_re, div_self hne]

end Spec.Device

/-- What is asked of the inputs: positive length unit, frequency and sharpness, a material, a design region of zeros and ones in a background made of the two materials, one of the three regular starts, a
differentiable function of some of `Ez`, `Hx` and `Hy`, and devices without resonances. -/
structure Spec.Inputs (d : Spec.Device Nx Ny) (bg : Grid Nx Ny ℂ) (design : Grid Nx Ny ℝ) (style : Style) (J : ObjFn Nx Ny) (comps : List String) : Prop where
  L0_pos : 0 < d.L0
  omega_pos : 0 < d.omega
  nx : 1 < Nx
  ny : 1 < Ny
  eps_m : 1 < d.eps_m
  beta : 0 < d.beta
  mask : Spec.Mask design
  background : ∀ i j, design i j ≠ 1 → bg i j = 1 ∨ bg i j = d.eps_m
  style : style = .full ∨ style = .halfway ∨ style = .empty
  names : ∀ c ∈ comps, c ∈ ["Ez", "Hx", "Hy"]
  len : comps.length = J.arity
  autograd : ∀ x, Spec.Autograd J x
  regular : ∀ x, Spec.Box x → d.Regular x

namespace Spec.Inputs
variable {d : Spec.Device Nx Ny} {bg : Grid Nx Ny ℂ} {design : Grid Nx Ny ℝ} {style : Style} {J : ObjFn Nx Ny} {comps : List String}

theorem args (h : Spec.Inputs d bg design style J comps) : ∃ args : List ObjArg, (comps.mapM fun c => ObjArg.init c false) = .ok args ∧ List.Forall₂ (fun c b => ObjArg.init c false = .ok b) comps args := by
  refine mapM_ok fun c hc => ?_
  have := h.names c hc
  fin_cases this <;> exact ⟨_, rfl⟩

theorem args_len (h : Spec.Inputs d bg design style J comps) {args : List ObjArg} (hf : List.Forall₂ (fun c b => ObjArg.init c false = .ok b) comps args) : args.length = J.arity :=
  hf.length_eq.symm.trans h.len

theorem problem (h : Spec.Inputs d bg design style J comps) {args : List ObjArg} (hf : List.Forall₂ (fun c b => ObjArg.init c false = .ok b) comps args) (draw : Grid Nx Ny ℝ) :
    Spec.EzProblem (d.opt bg design style draw J args) J args where
  obj := by
    unfold Objective.init
    rw [if_neg (not_not.2 (h.args_len hf))]
    rfl
  args_ok := fun a ha => by
    obtain ⟨k, hk, rfl⟩ := List.mem_iff_getElem.1 ha
    have hk' : k < comps.length := hf.length_eq ▸ hk
    exact ⟨comps[k], h.names _ (List.getElem_mem hk'), (List.forall₂_iff_get.1 hf).2 k hk' hk⟩
  valid := d.opt_valid h.L0_pos h.omega_pos _ _ _ _ _ _
  pol := by cases style <;> rfl
  solvable := fun x hx => (d.regular_iff bg design style draw J args h.L0_pos h.omega_pos h.nx h.ny x).1 (h.regular x hx)
  beta := h.beta.ne'
  shift := rfl
  mask := h.mask
  filter := fun i j hd => filterSym_one h.mask hd
  autograd := h.autograd

/-- The value of the user's function is what `compute_J` computes. -/
theorem value (h : Spec.Inputs d bg design style J comps) {args : List ObjArg} (hf : List.Forall₂ (fun c b => ObjArg.init c false = .ok b) comps args) (draw : Grid Nx Ny ℝ) (env : Env) (he : env.Exact)
    {F : Grid Nx Ny ℝ → ℝ} (hF : d.IsValue J comps h.len F) {x : Grid Nx Ny ℝ} (hx : d.Regular x) : F x = linObj env (d.opt bg design style draw J args) J args (h.args_len hf) x := by
  have hdet := (d.regular_iff bg design style draw J args h.L0_pos h.omega_pos h.nx h.ny x).1 hx
  have hrhs : (Spec.simAt (d.opt bg design style draw J args) x).rhs = fun k => flatten d.src k * Complex.I * (d.omega : ℂ) := by cases style <;> rfl
  have hX := solver_direct_spec he (b := (Spec.simAt (d.opt bg design style draw J args) x).rhs) (Or.inl hdet)
  unfold linObj
  generalize hXd : solver_direct env (Spec.simAt (d.opt bg design style draw J args) x).A (Spec.simAt (d.opt bg design style draw J args) x).rhs = X at hX ⊢
  have hs := (d.solves_iff bg design style draw J args h.L0_pos h.omega_pos h.nx h.ny x d.src _ _ (unflatten X)).2 ⟨by rw [flatten_unflatten, hX, hrhs], rfl, rfl⟩
  rw [hF x hx _ _ _ hs]
  congr 1
  funext k
  rw [flatten_unflatten]
  refine (linField_pick _ X (h.names _ (List.get_mem _ _)) ?_).symm
  exact (List.forall₂_iff_get.1 hf).2 k _ _

/-- … also near every density between 0 and 1. -/
theorem value_near (h : Spec.Inputs d bg design style J comps) {args : List ObjArg} (hf : List.Forall₂ (fun c b => ObjArg.init c false = .ok b) comps args) (draw : Grid Nx Ny ℝ) (env : Env) (he : env.Exact)
    {F : Grid Nx Ny ℝ → ℝ} (hF : d.IsValue J comps h.len F) {x : Grid Nx Ny ℝ} (hx : Spec.Box x) : F =ᶠ[𝓝 x] linObj env (d.opt bg design style draw J args) J args (h.args_len hf) := by
  have hp := h.problem hf draw
  have hc : ContDiffAt ℝ 0 (fun y : Grid Nx Ny ℝ => (Spec.simAt (d.opt bg design style draw J args) y).A.det) x := contDiffAt_det fun k l => (hp.contDiff_A k l).contDiffAt
  filter_upwards [hc.continuousAt.eventually_ne (hp.solvable x hx)] with y hy
  exact h.value hf draw env he hF ((d.regular_iff bg design style draw J args h.L0_pos h.omega_pos h.nx h.ny y).2 hy)

theorem value_partials (h : Spec.Inputs d bg design style J comps) {args : List ObjArg} (hf : List.Forall₂ (fun c b => ObjArg.init c false = .ok b) comps args) (draw : Grid Nx Ny ℝ) (env : Env) (he : env.Exact)
    {F : Grid Nx Ny ℝ → ℝ} (hF : d.IsValue J comps h.len F) {x : Grid Nx Ny ℝ} (hx : Spec.Box x) (i : Fin Nx) (j : Fin Ny) :
    Spec.partials F x i j = Spec.partials (linObj env (d.opt bg design style draw J args) J args (h.args_len hf)) x i j := by
  unfold Spec.partials
  refine Filter.EventuallyEq.deriv_eq ?_
  have hb : Tendsto (Spec.bump x i j) (𝓝 0) (𝓝 x) := by
    have : ContinuousAt (Spec.bump x i j) 0 := continuousAt_pi.2 fun p => continuousAt_pi.2 fun q => (hasDerivAt_bump x i j p q).continuousAt
    have h2 := this.tendsto
    rwa [bump_zero] at h2
  exact hb.eventually (h.value_near hf draw env he hF hx)

theorem start_box (h : Spec.Inputs d bg design style J comps) : Spec.Box (Spec.startDensity bg design style) := by
  intro i j
  unfold Spec.startDensity
  split_ifs
  · rcases h.style with rfl | rfl | rfl <;> norm_num
  · exact ⟨le_rfl, zero_le_one⟩
  · exact ⟨zero_le_one, le_rfl⟩

theorem start_eps (h : Spec.Inputs d bg design style J comps) (draw : Grid Nx Ny ℝ) (args : List ObjArg) :
    (d.opt bg design style draw J args).simulation.eps_r = fun i j => ((rho2eps (Spec.startDensity bg design style) d.eps_m 1 (1 / 2) d.beta i j : ℝ) : ℂ) := by
  obtain ⟨rho, h1, -, h2⟩ := C84_start (d.sim bg) design d.eps_m h.eps_m style h.style draw h.background d.beta h.beta
  have h3 := d.start_rho bg design style draw J args h.eps_m h.style h.background
  have : rho = Spec.startDensity bg design style := Option.some.inj (Option.some.inj (h1.symm.trans h3))
  rw [← this]
  exact h2

theorem eps_project (x : Grid Nx Ny ℝ) (m b : ℝ) : (fun i j => ((rho2eps x m 1 (1 / 2) b i j : ℝ) : ℂ)) = fun i j => ((1 + Spec.project b (x i j) * (m - 1) : ℝ) : ℂ) := by
  funext i j
  unfold rho2eps rhob2eps
  simp only [rho2rhot_one, project_eq]

end Spec.Inputs

/-- **C87.** The user's script, followed by `run('gd')` or `run('adam')`: it is stated from the inputs alone, without mentioning anything the program stores in between.  The script succeeds; every device
between the two materials has exactly one electromagnetic field; there is a function `F` of the density with the values of the user's function at these fields, and for every such function:
gradient ascent started at the density asked for ends at the `n`-th iterate of projected gradient ascent on `F`, leaves the permittivity of that density, and has recorded the values of `F` along the way; the same with Adam. -/
theorem C87_workflow (env : Env) (he : env.Exact) (d : Spec.Device Nx Ny) (bg : Grid Nx Ny ℂ) (design : Grid Nx Ny ℝ) (style : Style) (draw : Grid Nx Ny ℝ) (J : ObjFn Nx Ny) (comps : List String)
    (h : Spec.Inputs d bg design style J comps) :
    ∃ o, script d bg design style draw J comps = .ok o ∧ (∀ x, Spec.Box x → ∃! f : Grid Nx Ny ℂ × Grid Nx Ny ℂ × Grid Nx Ny ℂ, d.Solves x d.src f.1 f.2.1 f.2.2) ∧
      (∃ F, d.IsValue J comps h.len F) ∧ ∀ F, d.IsValue J comps h.len F →
        (∀ (n : ℕ) (s b1 b2 : ℝ) (calls : List Opt.LbfgsCall) (y : List ℝ), ∃ o', Opt.run env "gd" n s b1 b2 calls y o = (.ok (), o') ∧
          o'.simulation.rho = some (some (Spec.gdPath F design s (Spec.startDensity bg design style) n)) ∧
          o'.simulation.eps_r = (fun i j => ((1 + Spec.project d.beta (Spec.gdPath F design s (Spec.startDensity bg design style) n i j) * (d.eps_m - 1) : ℝ) : ℂ)) ∧
          o'.objfn_list = (List.range n).map fun k => F (Spec.gdPath F design s (Spec.startDensity bg design style) k)) ∧
        ∀ (s b1 b2 : ℝ) (calls : List Opt.LbfgsCall) (y : List ℝ), 0 ≤ b1 ∧ b1 < 1 → 0 ≤ b2 ∧ b2 < 1 → ∃ r : ℕ → Grid Nx Ny ℝ, r 0 = Spec.startDensity bg design style ∧
          Spec.AdamPath F design s b1 b2 r ∧ ∀ n, ∃ o', Opt.run env "adam" n s b1 b2 calls y o = (.ok (), o') ∧ o'.simulation.rho = some (some (r n)) ∧
            o'.simulation.eps_r = (fun i j => ((1 + Spec.project d.beta (r n i j) * (d.eps_m - 1) : ℝ) : ℂ)) ∧ o'.objfn_list = (List.range n).map fun k => F (r k) := by
  obtain ⟨args, ha, hf⟩ := h.args
  have hp := h.problem hf draw
  have hbox := h.start_box
  have hrho := d.start_rho bg design style draw J args h.eps_m h.style h.background
  have heps := h.start_eps draw args
  have hG := hp.isObjective env
  refine ⟨d.opt bg design style draw J args, d.script_eq h.L0_pos h.omega_pos bg design style draw J comps args ha (h.args_len hf), fun x hx => ?_, ?_, fun F hF => ?_⟩
  · have hdet := hp.solvable x hx
    have hX := solver_direct_spec he (b := fun k => flatten d.src k * Complex.I * (d.omega : ℂ)) (Or.inl hdet)
    refine ⟨(_, _, unflatten _), (d.solves_iff bg design style draw J args h.L0_pos h.omega_pos h.nx h.ny x d.src _ _ (unflatten _)).2 ⟨by rw [flatten_unflatten]; exact hX, rfl, rfl⟩, ?_⟩
    rintro ⟨Hx, Hy, Ez⟩ hs
    obtain ⟨h1, h2, h3⟩ := (d.solves_iff bg design style draw J args h.L0_pos h.omega_pos h.nx h.ny x d.src _ _ _).1 hs
    simp only at h1 h2 h3
    have h4 := solver_direct_unique he hdet h1
    rw [h4, unflatten_flatten, h2, h3]
    rfl
  · refine ⟨linObj env (d.opt bg design style draw J args) J args (h.args_len hf), fun x hx Hx Hy Ez hs => ?_⟩
    obtain ⟨h1, h2, h3⟩ := (d.solves_iff bg design style draw J args h.L0_pos h.omega_pos h.nx h.ny x d.src _ _ _).1 hs
    have hdet := (d.regular_iff bg design style draw J args h.L0_pos h.omega_pos h.nx h.ny x).1 hx
    have hrhs : (Spec.simAt (d.opt bg design style draw J args) x).rhs = fun k => flatten d.src k * Complex.I * (d.omega : ℂ) := by cases style <;> rfl
    unfold linObj
    rw [hrhs, solver_direct_unique he hdet h1]
    congr 1
    funext k
    refine (linField_pick _ (flatten Ez) (h.names _ (List.get_mem _ _)) (a := args.get (Fin.cast (h.args_len hf).symm k)) ((List.forall₂_iff_get.1 hf).2 k (by rw [h.len]; exact k.2) _)).trans ?_
    rw [← h2, ← h3, unflatten_flatten]
    rfl
  · have hpart := fun x hx => h.value_partials hf draw env he hF (x := x) hx
    have hval : ∀ x, Spec.Box x → linObj env (d.opt bg design style draw J args) J args (h.args_len hf) x = F x := fun x hx => (h.value hf draw env he hF (h.regular x hx)).symm
    refine ⟨fun n s b1 b2 calls y => ?_, fun s b1 b2 calls y hb1 hb2 => ?_⟩
    · obtain ⟨o', h1, h2, h3, h4⟩ := C84_gd env he _ J args hp _ hG _ hbox hrho heps n s b1 b2 calls y
      have e := fun k => gdPath_congr (design := design) hpart s hbox k
      refine ⟨o', h1, ?_, ?_, ?_⟩
      · rw [e]; exact h2
      · rw [← Spec.Inputs.eps_project (Spec.gdPath F design s (Spec.startDensity bg design style) n), e]; exact h3
      · rw [h4]
        show [] ++ _ = _
        rw [List.nil_append]
        refine List.map_congr_left fun k _ => ?_
        rw [e]
        exact hval _ (box_gdPath _ _ _ hbox k)
    · obtain ⟨r, h0, h1, hb, h2⟩ := C84_adam env he _ J args hp _ hG _ hbox hrho heps s b1 b2 hb1 hb2 calls y
      refine ⟨r, h0, adamPath_congr hpart hb h1, fun n => ?_⟩
      obtain ⟨o', h3, h4, h5, h6⟩ := h2 n
      refine ⟨o', h3, h4, ?_, ?_⟩
      · rw [← Spec.Inputs.eps_project (r n)]; exact h5
      · rw [h6]
        show [] ++ _ = _
        rw [List.nil_append]
        exact List.map_congr_left fun k _ => hval _ (hb k)

/-- **C87, what the script accepts.** It succeeds exactly for a positive length unit and frequency, field names among the six, and as many of them as the function has arguments. -/
theorem C87_accepts (d : Spec.Device Nx Ny) (bg : Grid Nx Ny ℂ) (design : Grid Nx Ny ℝ) (style : Style) (draw : Grid Nx Ny ℝ) (J : ObjFn Nx Ny) (comps : List String) :
    (∃ o, script d bg design style draw J comps = .ok o) ↔ 0 < d.L0 ∧ 0 < d.omega ∧ (∀ c ∈ comps, c ∈ ["Ex", "Ey", "Ez", "Hx", "Hy", "Hz"]) ∧ comps.length = J.arity := by
  have hinit : ∀ c : String, (∃ a, ObjArg.init c false = .ok a) ↔ c ∈ ["Ex", "Ey", "Ez", "Hx", "Hy", "Hz"] := by
    intro c
    constructor
    · rintro ⟨a, ha⟩
      by_contra hc
      simp only [List.mem_cons, List.not_mem_nil, or_false, not_or] at hc
      obtain ⟨h1, h2, h3, h4, h5, h6⟩ := hc
      have : compOfString c = none := by
        unfold compOfString
        split <;> first | rfl | contradiction
      unfold ObjArg.init at ha
      rw [this] at ha
      cases ha
    · intro hc
      fin_cases hc <;> exact ⟨_, rfl⟩
  constructor
  · rintro ⟨o, ho⟩
    have hL : 0 < d.L0 := by
      by_contra hn
      unfold script Sim.init Sim.check_inputs at ho
      rw [if_pos hn] at ho
      cases ho
    have hw : 0 < d.omega := by
      by_contra hn
      unfold script Sim.init Sim.check_inputs at ho
      rw [if_neg (not_not.2 hL), if_pos hn] at ho
      cases ho
    have hall : ∀ c ∈ comps, ∃ a, ObjArg.init c false = .ok a := by
      by_contra hn
      obtain ⟨e, he⟩ : ∃ e, (comps.mapM fun c => ObjArg.init c false) = .error e := by
        clear ho
        induction comps with
        | nil => exact absurd (fun c hc => absurd hc (List.not_mem_nil)) hn
        | cons c l ih =>
          cases hc : ObjArg.init c false with
          | error e => exact ⟨e, by rw [List.mapM_cons, hc]; rfl⟩
          | ok a =>
            obtain ⟨e, he⟩ := ih fun hl => hn fun c' hc' => by
              rcases List.mem_cons.1 hc' with rfl | h'
              · exact ⟨a, hc⟩
              · exact hl c' h'
            exact ⟨e, by rw [List.mapM_cons, hc, he]; rfl⟩
      unfold script at ho
      rw [he] at ho
      cases hs : Sim.init d.omega bg d.dl (.list [(d.npml.1 : ℝ), (d.npml.2 : ℝ)]) "Ez" d.L0 <;> rw [hs] at ho <;> cases ho
    refine ⟨hL, hw, fun c hc => (hinit c).1 (hall c hc), ?_⟩
    obtain ⟨args, h1, h2⟩ := mapM_ok hall
    by_contra hn
    have hob : Objective.init J args = .error .valueError := by
      unfold Objective.init
      rw [if_pos (by rw [← h2.length_eq]; exact hn)]
    unfold script at ho
    rw [h1] at ho
    cases hs : Sim.init d.omega bg d.dl (.list [(d.npml.1 : ℝ), (d.npml.2 : ℝ)]) "Ez" d.L0 <;> rw [hs] at ho
    · cases ho
    · simp only [Bind.bind, Except.bind, hob] at ho
      cases ho
  · rintro ⟨hL, hw, hc, hlen⟩
    obtain ⟨args, h1, h2⟩ := mapM_ok fun c h => (hinit c).2 (hc c h)
    exact ⟨_, d.script_eq hL hw bg design style draw J comps args h1 (h2.length_eq.symm.trans hlen)⟩

/-- **C87, where runs end.** If moreover the function is twice continuously differentiable, then for all small step sizes the values of the user's function along gradient ascent never decrease and converge,
and for every tolerance all sufficiently long runs of the script end within it of a density that no small change in the design region improves to first order. -/
theorem C87_converges (env : Env) (he : env.Exact) (d : Spec.Device Nx Ny) (bg : Grid Nx Ny ℂ) (design : Grid Nx Ny ℝ) (style : Style) (draw : Grid Nx Ny ℝ) (J : ObjFn Nx Ny) (comps : List String)
    (h : Spec.Inputs d bg design style J comps) (hJ : ContDiff ℝ 2 J.eval) (F : Grid Nx Ny ℝ → ℝ) (hF : d.IsValue J comps h.len F) :
    ∃ o, script d bg design style draw J comps = .ok o ∧ ∃ s0 : ℝ, 0 < s0 ∧ ∀ s, 0 < s → s ≤ s0 →
      Monotone (fun k => F (Spec.gdPath F design s (Spec.startDensity bg design style) k)) ∧ (∃ v, Tendsto (fun k => F (Spec.gdPath F design s (Spec.startDensity bg design style) k)) atTop (𝓝 v)) ∧
      ∀ ε, 0 < ε → ∀ᶠ n in atTop, ∃ y, Spec.Box y ∧ Spec.Stationary F design y ∧
        ∀ (b1 b2 : ℝ) (calls : List Opt.LbfgsCall) (z : List ℝ), ∃ o' x, Opt.run env "gd" n s b1 b2 calls z o = (.ok (), o') ∧ o'.simulation.rho = some (some x) ∧ ∀ i j, |x i j - y i j| < ε := by
  obtain ⟨args, ha, hf⟩ := h.args
  have hp := h.problem hf draw
  have hbox := h.start_box
  have hrho := d.start_rho bg design style draw J args h.eps_m h.style h.background
  have heps := h.start_eps draw args
  have hG := hp.isObjective env
  have hpart := fun x hx => h.value_partials hf draw env he hF (x := x) hx
  have hval : ∀ x, Spec.Box x → linObj env (d.opt bg design style draw J args) J args (h.args_len hf) x = F x := fun x hx => (h.value hf draw env he hF (h.regular x hx)).symm
  refine ⟨_, d.script_eq h.L0_pos h.omega_pos bg design style draw J comps args ha (h.args_len hf), ?_⟩
  obtain ⟨s0, h0, hs0⟩ := C85_gd_converges env he _ J args hp hJ _ hG _ hbox hrho heps
  refine ⟨s0, h0, fun s hs hle => ?_⟩
  obtain ⟨r, v, -, hrun, hinc, hlim, -, -, -, -, hnear⟩ := hs0 s hs hle
  have hr : ∀ k, r k = Spec.gdPath F design s (Spec.startDensity bg design style) k := by
    intro k
    obtain ⟨o1, g1, g2, -⟩ := hrun k 0 0 [] []
    obtain ⟨o2, k1, k2, -⟩ := C84_gd env he _ J args hp _ hG _ hbox hrho heps k s 0 0 [] []
    have : o1 = o2 := (Prod.mk.inj (g1.symm.trans k1)).2
    rw [← this, g2] at k2
    rw [gdPath_congr hpart s hbox k]
    exact Option.some.inj (Option.some.inj k2)
  have hrb : ∀ k, Spec.Box (r k) := fun k => by rw [hr]; exact box_gdPath _ _ _ hbox k
  have hFr : ∀ k, F (Spec.gdPath F design s (Spec.startDensity bg design style) k) = linObj env (d.opt bg design style draw J args) J args (h.args_len hf) (r k) := fun k => by
    rw [hval _ (hrb k), hr]
  simp only [hFr]
  refine ⟨monotone_nat_of_le_succ fun k => ?_, ⟨v, hlim⟩, fun ε hε => ?_⟩
  · have h1 := hinc k
    have h2 : 0 ≤ 1 / (2 * s) * Spec.distSq (r k) (r (k + 1)) := mul_nonneg (by positivity) (Finset.sum_nonneg fun i _ => Finset.sum_nonneg fun j _ => sq_nonneg _)
    linarith
  · filter_upwards [hnear ε hε] with n hn
    obtain ⟨y, hyb, hys, hy⟩ := hn
    refine ⟨y, hyb, fun i j hd t ht0 ht1 => ?_, fun b1 b2 calls z => ?_⟩
    · rw [hpart y hyb]
      exact hys i j hd t ht0 ht1
    · obtain ⟨o', h1, h2, -⟩ := hrun n b1 b2 calls z
      exact ⟨o', r n, h1, h2, hy⟩

/-! ## A concrete device -/

/-- A device on a coarse grid. -/
noncomputable def wdev (P : ℕ) (src : Grid Nx Ny ℂ) : Spec.Device Nx Ny := ⟨1, 3 / ETA_0, 1 / EPSILON_0, (P, P), 5, 1, src⟩

theorem wdev_inputs (hx : 1 < Nx) (hy : 1 < Ny) (P : ℕ) (src bg : Grid Nx Ny ℂ) (design : Grid Nx Ny ℝ) (hm : Spec.Mask design) (hbg : ∀ i j, design i j ≠ 1 → bg i j = 1 ∨ bg i j = ((5 : ℝ) : ℂ)) (style : Style)
    (hst : style = .full ∨ style = .halfway ∨ style = .empty) (J : ObjFn Nx Ny) (hJ : ∀ x, Spec.Autograd J x) (comps : List String) (hc : ∀ c ∈ comps, c ∈ ["Ez", "Hx", "Hy"]) (hlen : comps.length = J.arity) :
    Spec.Inputs (wdev P src) bg design style J comps where
  L0_pos := one_div_pos.2 EPSILON_0_pos
  omega_pos := one_pos
  nx := hx
  ny := hy
  eps_m := by show (1 : ℝ) < 5; norm_num
  beta := one_pos
  mask := hm
  background := hbg
  style := hst
  names := hc
  len := hlen
  autograd := hJ
  regular := fun x hb => ((wdev P src).regular_iff bg design style (fun _ _ => 0) J [] (one_div_pos.2 EPSILON_0_pos) one_pos hx hy x).2
    (solvable_coarse _ ((wdev P src).opt_valid (one_div_pos.2 EPSILON_0_pos) one_pos bg design style (fun _ _ => 0) J []) (by cases style <;> rfl) hx hy
      (by have := gsim_coarse (Nx := Nx) (Ny := Ny) P src; cases style <;> exact this) filterKeeps_one one_pos (by show (1 : ℝ) ≤ 5; norm_num) x hb)

theorem clip01_quarter : Opt.clip01 (1 / 4) = 1 / 4 := clip01_of_mem ⟨by norm_num, by norm_num⟩

theorem settings_inv (env : Env) (o : Opt Nx Ny) : RunInv env fun o' : Opt Nx Ny => o'.W = o.W ∧ o'.design_region = o.design_region ∧ o'.eps_m = o.eps_m ∧ o'.eta = o.eta ∧ o'.beta = o.beta where
  keep := fun _ _ hk h => ⟨hk.W.trans h.1, hk.design.trans h.2.1, hk.eps_m.trans h.2.2.1, hk.eta.trans h.2.2.2.1, hk.beta.trans h.2.2.2.2⟩
  log := fun _ _ h => h
  stale := fun _ h => h
  amp := fun o' h => by
    rw [(set_source_amplitude_keep env o').1]
    exact h
  upd := fun o' g st h => by
    unfold Opt.update_rho
    split <;> exact h

/-- Pixels outside the design region with density 1/4 keep this density, and from the first step on have the permittivity of its projection. -/
theorem run_GD_outside (env : Env) {J : ObjFn Nx Ny} {args : List ObjArg} {i0 : Fin Nx} {j0 : Fin Ny} (s : ℝ) (n : ℕ) :
    ∀ (o : Opt Nx Ny) (rho : Grid Nx Ny ℝ), Runnable o J args → o.simulation.rho = some (some rho) → o.design_region i0 j0 = 0 → rho i0 j0 = 1 / 4 → o.W = 1 →
      ∃ o', Opt.run_GD env s (n + 1) o = (.ok (), o') ∧ o'.simulation.eps_r i0 j0 = ((1 + rhot2rhob (1 / 4) o.eta o.beta * (o.eps_m - 1) : ℝ) : ℂ) := by
  induction n with
  | zero =>
    intro o rho hR hr hd hq hW
    obtain ⟨o', g, h1, -, -, h3⟩ := hR.stepGD env hr s
    refine ⟨o', ?_, ?_⟩
    · show pySeq (Opt.stepGD env s o) _ = _
      rw [h1]
      rfl
    · rw [h3, hW]
      unfold rho2eps rhob2eps
      simp only [rho2rhot_one, hd, hq, zero_mul, add_zero, clip01_quarter]
  | succ n ih =>
    intro o rho hR hr hd hq hW
    obtain ⟨o1, g, h1, h2, h3, -⟩ := hR.stepGD env hr s
    have hk := (settings_inv env o).stepGD s o ⟨rfl, rfl, rfl, rfl, rfl⟩
    rw [h1] at hk
    obtain ⟨o', h4, h5⟩ := ih o1 _ h2 h3 (by rw [hk.2.1]; exact hd) (by simp only [hd, hq, zero_mul, add_zero, clip01_quarter]) (hk.1.trans hW)
    refine ⟨o', ?_, ?_⟩
    · show pySeq (Opt.stepGD env s o) _ = _
      rw [h1]
      exact h4
    · rw [h5, hk.2.2.2.1, hk.2.2.2.2, hk.2.2.1]

/-- **C87, why two materials.** With a third material in the background the run changes pixels outside the design region: a pixel of permittivity 2, not designed, has another permittivity after any
positive number of steps. -/
theorem C87_false_background (env : Env) (P : ℕ) (src bg : Grid Nx Ny ℂ) (design draw : Grid Nx Ny ℝ) (i0 : Fin Nx) (j0 : Fin Ny) (hd : design i0 j0 = 0) (hb : bg i0 j0 = 2) (style : Style)
    (hst : style = .full ∨ style = .halfway ∨ style = .empty) (J : ObjFn Nx Ny) (comps : List String) (hc : ∀ c ∈ comps, c ∈ ["Ez", "Hx", "Hy"]) (hlen : comps.length = J.arity)
    (n : ℕ) (s b1 b2 : ℝ) (calls : List Opt.LbfgsCall) (y : List ℝ) :
    ∃ o, script (wdev P src) bg design style draw J comps = .ok o ∧ o.simulation.eps_r i0 j0 = 2 ∧
      ∃ o', Opt.run env "gd" (n + 1) s b1 b2 calls y o = (.ok (), o') ∧ o'.simulation.eps_r i0 j0 ≠ 2 := by
  obtain ⟨args, ha, hf⟩ := mapM_ok (f := fun c => ObjArg.init c false) (l := comps) fun c h => by
    have := hc c h
    fin_cases this <;> exact ⟨_, rfl⟩
  have hl : args.length = J.arity := hf.length_eq.symm.trans hlen
  have hd1 : design i0 j0 ≠ 1 := by rw [hd]; norm_num
  have he : ((wdev P src).opt bg design style draw J args).simulation.eps_r i0 j0 = 2 := by
    show (((wdev P src).sim bg).init_design_region design 5 style draw).eps_r i0 j0 = 2
    rcases hst with rfl | rfl | rfl <;> simp only [Sim.init_design_region, designEps, Sim.set_eps_r, if_neg hd1, Spec.Device.sim, hb]
  refine ⟨_, (wdev P src).script_eq (one_div_pos.2 EPSILON_0_pos) one_pos bg design style draw J comps args ha hl, he, ?_⟩
  have hargs : ∀ a ∈ args, ∃ c, c ∈ ["Ez", "Hx", "Hy"] ∧ ObjArg.init c false = .ok a := fun a ha => by
    obtain ⟨k, hk, rfl⟩ := List.mem_iff_getElem.1 ha
    have hk' : k < comps.length := hf.length_eq ▸ hk
    exact ⟨comps[k], hc _ (List.getElem_mem hk'), (List.forall₂_iff_get.1 hf).2 k hk' hk⟩
  have hR : Runnable ((wdev P src).opt bg design style draw J args) J args := by
    refine ⟨?_, fun a h => ?_, fun a h => ?_, rfl, rfl, fun c _ => ?_⟩
    · unfold Objective.init
      rw [if_neg (not_not.2 hl)]
      rfl
    · obtain ⟨c, -, h2⟩ := hargs a h
      exact ⟨c, h2⟩
    · obtain ⟨c, h1, h2⟩ := hargs a h
      have hp : ((wdev P src).opt bg design style draw J args).simulation.pol = .Ez := by cases style <;> rfl
      rw [hp]
      fin_cases h1 <;> cases h2 <;> exact trivial
    · cases style <;> rfl
  have hr : ((wdev P src).opt bg design style draw J args).simulation.rho = some (some fun i j => eps2rho (((wdev P src).opt bg design style draw J args).simulation.eps_r i j).re 5) := rfl
  obtain ⟨o', h1, h2⟩ := run_GD_outside (i0 := i0) (j0 := j0) env s n _ _ hR hr hd (by
    rw [he]
    unfold eps2rho
    norm_num) rfl
  refine ⟨o', by rw [run_gd hr lower_gd]; exact h1, ?_⟩
  rw [h2]
  intro h
  have h3 : 1 + rhot2rhob (1 / 4) (1 / 2) 1 * (5 - 1) = (2 : ℝ) := Complex.ofReal_injective (h.trans (by norm_num))
  exact rhot2rhob_quarter (by linarith)

/-- The total intensity of `Hy`, on a 9 × 9 grid with absorbing layers one pixel thick, the inner part half filled in a background of both materials. -/
example (env : Env) (he : env.Exact) (draw : Grid 9 9 ℝ) (src : Grid 9 9 ℂ) :
    let design : Grid 9 9 ℝ := fun i j => if 2 ≤ i.val ∧ i.val ≤ 6 ∧ 2 ≤ j.val ∧ j.val ≤ 6 then 1 else 0
    let bg : Grid 9 9 ℂ := fun _ j => if j.val = 4 then ((5 : ℝ) : ℂ) else 1
    ∃ o, script (wdev 1 src) bg design .halfway draw (intensityJ 9 9) ["Hy"] = .ok o ∧ ∃ F, (wdev 1 src).IsValue (intensityJ 9 9) ["Hy"] rfl F ∧
      ∀ (n : ℕ) (s : ℝ), ∃ o', Opt.run env "gd" n s 0.9 0.999 [] [] o = (.ok (), o') ∧
        o'.objfn_list = (List.range n).map fun k => F (Spec.gdPath F design s (Spec.startDensity bg design .halfway) k) := by
  intro design bg
  have h : Spec.Inputs (wdev 1 src) bg design .halfway (intensityJ 9 9) ["Hy"] := wdev_inputs (by norm_num) (by norm_num) 1 src bg design (fun i j => by
      by_cases hc : 2 ≤ i.val ∧ i.val ≤ 6 ∧ 2 ≤ j.val ∧ j.val ≤ 6
      · exact Or.inr (if_pos hc)
      · exact Or.inl (if_neg hc)) (fun i j _ => by
      by_cases hc : j.val = 4
      · exact Or.inr (if_pos hc)
      · exact Or.inl (if_neg hc)) .halfway (Or.inr (Or.inl rfl)) _ intensityJ_autograd ["Hy"] (by simp) rfl
  obtain ⟨o, h1, -, ⟨F, hF⟩, h2⟩ := C87_workflow env he (wdev 1 src) bg design .halfway draw (intensityJ 9 9) ["Hy"] h
  refine ⟨o, h1, F, hF, fun n s => ?_⟩
  obtain ⟨o', h3, -, -, h4⟩ := (h2 F hF).1 n s 0.9 0.999 [] []
  exact ⟨o', h3, h4⟩

end Angler
