import Verif.Lemmas.GradientKerr
import Mathlib.Analysis.Calculus.ContDiff.Operations
import Mathlib.Analysis.SpecialFunctions.Trigonometric.DerivHyp
import Mathlib.Analysis.Complex.RealDeriv
import Mathlib.LinearAlgebra.Complex.FiniteDimensional

/-! # The branch of Kerr solutions through an exact one -/

namespace Angler

open Matrix Filter Topology

section Abstract
variable {n : ℕ}

/-- `A₀ v + c (ε(t) + K(t) |v|²) v - r`, pixel by pixel. -/
noncomputable def kerrG (A0 : Mat n ℂ) (c : ℂ) (e K : ℝ → Vec n ℂ) (r : Vec n ℂ) (x : ℝ × Vec n ℂ) : Vec n ℂ := fun k =>
  ∑ l, A0 k l * x.2 l + c * (e x.1 k + K x.1 k * (x.2 k * (starRingEnd ℂ) (x.2 k))) * x.2 k - r k

theorem contDiff_kerrG (A0 : Mat n ℂ) (c : ℂ) {e K : ℝ → Vec n ℂ} (r : Vec n ℂ) (he : ∀ k, ContDiff ℝ 1 fun t => e t k) (hK : ∀ k, ContDiff ℝ 1 fun t => K t k) :
    ContDiff ℝ 1 (kerrG A0 c e K r) := by
  refine contDiff_pi.2 fun k => ?_
  have hv : ∀ l, ContDiff ℝ 1 fun x : ℝ × Vec n ℂ => x.2 l := fun l => (contDiff_apply ℝ ℂ l).comp contDiff_snd
  have hc : ContDiff ℝ 1 fun x : ℝ × Vec n ℂ => (starRingEnd ℂ) (x.2 k) := Complex.conjCLE.contDiff.comp (hv k)
  have he' : ContDiff ℝ 1 fun x : ℝ × Vec n ℂ => e x.1 k := (he k).comp contDiff_fst
  have hK' : ContDiff ℝ 1 fun x : ℝ × Vec n ℂ => K x.1 k := (hK k).comp contDiff_fst
  have hs : ContDiff ℝ 1 fun x : ℝ × Vec n ℂ => ∑ l, A0 k l * x.2 l := ContDiff.sum fun l _ => contDiff_const.mul (hv l)
  exact (hs.add ((contDiff_const.mul (he'.add (hK'.mul ((hv k).mul hc)))).mul (hv k))).sub contDiff_const

theorem fderiv_kerrG (A0 : Mat n ℂ) (c : ℂ) {e K : ℝ → Vec n ℂ} (r : Vec n ℂ) (he : ∀ k, ContDiff ℝ 1 fun t => e t k) (hK : ∀ k, ContDiff ℝ 1 fun t => K t k)
    {e' K' : Vec n ℂ} (hed : ∀ k, HasDerivAt (fun t => e t k) (e' k) 0) (hKd : ∀ k, HasDerivAt (fun t => K t k) (K' k) 0) (v h : Vec n ℂ) (τ : ℝ) (k : Fin n) :
    fderiv ℝ (kerrG A0 c e K r) (0, v) (τ, h) k = ∑ l, A0 k l * h l + c * ((τ : ℂ) * (e' k + K' k * (v k * (starRingEnd ℂ) (v k))) * v k +
      (e 0 k + K 0 k * (v k * (starRingEnd ℂ) (v k))) * h k + K 0 k * (h k * (starRingEnd ℂ) (v k) + v k * (starRingEnd ℂ) (h k)) * v k) := by
  have hF : HasFDerivAt (kerrG A0 c e K r) (fderiv ℝ (kerrG A0 c e K r) (0, v)) (0, v) :=
    ((contDiff_kerrG A0 c r he hK).differentiable (by norm_num) _).hasFDerivAt
  have hline : HasDerivAt (fun s : ℝ => ((s * τ, fun l => v l + (s : ℂ) * h l) : ℝ × Vec n ℂ)) (τ, h) 0 := by
    refine HasDerivAt.prodMk ?_ (hasDerivAt_pi.2 fun l => ?_)
    · simpa using (hasDerivAt_id (0 : ℝ)).mul_const τ
    · have := (((hasDerivAt_id (0 : ℝ)).ofReal_comp).mul_const (h l)).const_add (v l)
      exact this.congr_deriv (by simp)
  have h0 : (fun s : ℝ => ((s * τ, fun l => v l + (s : ℂ) * h l) : ℝ × Vec n ℂ)) 0 = (0, v) := by
    simp
  have hF' : HasFDerivAt (kerrG A0 c e K r) (fderiv ℝ (kerrG A0 c e K r) (0, v)) ((fun s : ℝ => ((s * τ, fun l => v l + (s : ℂ) * h l) : ℝ × Vec n ℂ)) 0) := by
    rw [h0]; exact hF
  have hcomp := hasDerivAt_pi.1 (hF'.comp_hasDerivAt (0 : ℝ) hline) k
  refine hcomp.unique ?_
  have hvl : ∀ l, HasDerivAt (fun s : ℝ => v l + (s : ℂ) * h l) (h l) 0 := by
    intro l
    have := (((hasDerivAt_id (0 : ℝ)).ofReal_comp).mul_const (h l)).const_add (v l)
    exact this.congr_deriv (by simp)
  have hcl : HasDerivAt (fun s : ℝ => (starRingEnd ℂ) (v k + (s : ℂ) * h k)) ((starRingEnd ℂ) (h k)) 0 := by
    have := (((hasDerivAt_id (0 : ℝ)).ofReal_comp).mul_const ((starRingEnd ℂ) (h k))).const_add ((starRingEnd ℂ) (v k))
    refine (this.congr_deriv (by simp)).congr_of_eventuallyEq (Eventually.of_forall fun s => ?_)
    simp
  have hmul : HasDerivAt (fun s : ℝ => s * τ) τ 0 := by simpa using (hasDerivAt_id (0 : ℝ)).mul_const τ
  have hsc : ∀ {u : ℝ → ℂ} {u' : ℂ}, HasDerivAt u u' 0 → HasDerivAt (fun s : ℝ => u (s * τ)) ((τ : ℂ) * u') 0 := by
    intro u u' hu
    have hu' : HasDerivAt u u' (0 * τ) := by rw [zero_mul]; exact hu
    have := HasDerivAt.scomp (h := fun s : ℝ => s * τ) (0 : ℝ) hu' hmul
    exact this.congr_deriv (by simp)
  have hsum : HasDerivAt (fun s : ℝ => ∑ l, A0 k l * (v l + (s : ℂ) * h l)) (∑ l, A0 k l * h l) 0 :=
    HasDerivAt.fun_sum fun l _ => (hvl l).const_mul _
  have hall := (hsum.add (((((hsc (hed k)).add ((hsc (hKd k)).mul ((hvl k).mul hcl))).const_mul c).mul (hvl k)))).sub_const (r k)
  refine HasDerivAt.congr_deriv hall ?_
  simp only [Pi.mul_apply, Pi.add_apply, zero_mul, Complex.ofReal_zero, add_zero]
  ring

end Abstract

variable {Nx Ny : ℕ}

theorem Sim.Valid.set_eps_r {s : Sim Nx Ny} (hv : s.Valid) (e : Grid Nx Ny ℂ) : (s.set_eps_r e).Valid where
  L0_pos := hv.L0_pos
  omega_pos := hv.omega_pos
  xr := hv.xr
  yr := hv.yr
  A_eq := rfl
  derivs_eq := construct_A_derivs _ _ _ _ _ _ _ _

/-- The slope of the Kerr coefficient as a function of the permittivity. -/
noncomputable def kerrSlope (l : List (Nonlinearity Nx Ny)) (i : Fin Nx) (j : Fin Ny) : ℂ :=
  (l.map fun n => match n.scale with | some m => 3 * (n.chi : ℂ) * (n.nl_region i j : ℂ) * (1 / (((m : ℝ) : ℂ) - 1)) | none => 0).sum

theorem kerrSum_affine (l : List (Nonlinearity Nx Ny)) (eps : Grid Nx Ny ℂ) (i : Fin Nx) (j : Fin Ny) :
    Spec.kerrSum l eps i j = Spec.kerrSum l (fun _ _ => 0) i j + kerrSlope l i j * eps i j := by
  unfold Spec.kerrSum kerrSlope
  induction l with
  | nil => simp
  | cons a l ih =>
    simp only [List.map_cons, List.sum_cons]
    rw [ih]
    unfold Spec.kerrCoef
    cases a.scale with
    | none => simp only []; ring
    | some m => simp only []; ring

theorem dnl_deps_slope (s : Sim Nx Ny) (E : Grid Nx Ny ℂ) (i : Fin Nx) (j : Fin Ny) :
    (s.compute_nl E).dnl_deps i j = kerrSlope s.nonlinearity i j * (E i j * (starRingEnd ℂ) (E i j)) := by
  have hn : E i j * (starRingEnd ℂ) (E i j) = (((‖E i j‖ ^ 2 : ℝ)) : ℂ) := by
    rw [← Complex.normSq_eq_norm_sq, ← Complex.mul_conj]
  rw [compute_nl_dnl_deps, hn, kerrSlope, ← List.sum_map_mul_right]
  congr 1
  refine List.map_congr_left fun n _ => ?_
  unfold Nonlinearity.dnl_deps
  cases n.scale with
  | none => simp
  | some m => simp only []; ring

/-- The permittivity vector along the change of one density pixel. -/
noncomputable def epsPath (o : Opt Nx Ny) (rho : Grid Nx Ny ℝ) (i0 : Fin Nx) (j0 : Fin Ny) (t : ℝ) : Vec (Nx * Ny) ℂ :=
  flatten fun i j => ((rho2eps (Spec.bump rho i0 j0 t) o.eps_m o.W o.eta o.beta i j : ℝ) : ℂ)

/-- The Kerr coefficients along that change. -/
noncomputable def kerrPath (o : Opt Nx Ny) (rho : Grid Nx Ny ℝ) (i0 : Fin Nx) (j0 : Fin Ny) (t : ℝ) : Vec (Nx * Ny) ℂ :=
  flatten fun i j => Spec.kerrSum o.simulation.nonlinearity (fun i j => ((rho2eps (Spec.bump rho i0 j0 t) o.eps_m o.W o.eta o.beta i j : ℝ) : ℂ)) i j

/-- `dε/dt` along that change. -/
noncomputable def dEps (o : Opt Nx Ny) (rho : Grid Nx Ny ℝ) (i0 : Fin Nx) (j0 : Fin Ny) (i : Fin Nx) (j : Fin Ny) : ℂ :=
  (((o.eps_m - 1) * drhob_drhot (rho2rhot rho o.W i j) o.eta o.beta * o.W (finProdFinEquiv (i, j)) (finProdFinEquiv (i0, j0)) : ℝ) : ℂ)

theorem contDiff_tanh : ContDiff ℝ 1 Real.tanh := by
  have e : Real.tanh = fun x => Real.sinh x / Real.cosh x := by
    funext x; exact Real.tanh_eq_sinh_div_cosh x
  rw [e]
  exact Real.contDiff_sinh.div Real.contDiff_cosh fun x => (Real.cosh_pos x).ne'

theorem contDiff_rho2eps (rho : Grid Nx Ny ℝ) (eps_m : ℝ) (W : Mat (Nx * Ny) ℝ) (eta beta : ℝ) (i0 : Fin Nx) (j0 : Fin Ny) (i : Fin Nx) (j : Fin Ny) :
    ContDiff ℝ 1 fun t => rho2eps (Spec.bump rho i0 j0 t) eps_m W eta beta i j := by
  have hb : ∀ k, ContDiff ℝ 1 fun t => (flatten (Spec.bump rho i0 j0 t) : Vec (Nx * Ny) ℝ) k := by
    intro k
    obtain ⟨⟨a, b⟩, rfl⟩ := finProdFinEquiv.surjective k
    simp only [flatten_pair, Spec.bump]
    by_cases h : a = i0 ∧ b = j0
    · simp only [if_pos h]
      exact contDiff_const.add contDiff_id
    · simp only [if_neg h]
      exact contDiff_const
  have h1 : ContDiff ℝ 1 fun t => rho2rhot (Spec.bump rho i0 j0 t) W i j := by
    have : (fun t => rho2rhot (Spec.bump rho i0 j0 t) W i j) = fun t => ∑ l, W (finProdFinEquiv (i, j)) l * (flatten (Spec.bump rho i0 j0 t) : Vec (Nx * Ny) ℝ) l := rfl
    rw [this]
    exact ContDiff.sum fun l _ => contDiff_const.mul (hb l)
  unfold rho2eps
  have h2 : ContDiff ℝ 1 fun t => rhot2rhob (rho2rhot (Spec.bump rho i0 j0 t) W i j) eta beta := by
    unfold rhot2rhob
    exact (contDiff_const.add (contDiff_tanh.comp (contDiff_const.mul (h1.sub contDiff_const)))).div_const _
  exact contDiff_const.add (h2.mul contDiff_const)

theorem epsPath_contDiff (o : Opt Nx Ny) (rho : Grid Nx Ny ℝ) (i0 : Fin Nx) (j0 : Fin Ny) (k : Fin (Nx * Ny)) : ContDiff ℝ 1 fun t => epsPath o rho i0 j0 t k := by
  obtain ⟨⟨a, b⟩, rfl⟩ := finProdFinEquiv.surjective k
  simp only [epsPath, flatten_pair]
  exact Complex.ofRealCLM.contDiff.comp (contDiff_rho2eps rho o.eps_m o.W o.eta o.beta i0 j0 a b)

theorem epsPath_hasDerivAt (o : Opt Nx Ny) (rho : Grid Nx Ny ℝ) (hb : o.beta ≠ 0) (i0 : Fin Nx) (j0 : Fin Ny) (k : Fin (Nx * Ny)) :
    HasDerivAt (fun t => epsPath o rho i0 j0 t k) (flatten (dEps o rho i0 j0) k) 0 := by
  obtain ⟨⟨a, b⟩, rfl⟩ := finProdFinEquiv.surjective k
  simp only [epsPath, flatten_pair]
  exact hasDerivAt_rho2eps rho o.eps_m o.W o.eta o.beta hb i0 j0 a b

theorem kerrPath_eq (o : Opt Nx Ny) (rho : Grid Nx Ny ℝ) (i0 : Fin Nx) (j0 : Fin Ny) (t : ℝ) (i : Fin Nx) (j : Fin Ny) :
    kerrPath o rho i0 j0 t (finProdFinEquiv (i, j)) = Spec.kerrSum o.simulation.nonlinearity (fun _ _ => 0) i j +
      kerrSlope o.simulation.nonlinearity i j * epsPath o rho i0 j0 t (finProdFinEquiv (i, j)) := by
  simp only [kerrPath, epsPath, flatten_pair]
  exact kerrSum_affine _ _ _ _

theorem kerrPath_contDiff (o : Opt Nx Ny) (rho : Grid Nx Ny ℝ) (i0 : Fin Nx) (j0 : Fin Ny) (k : Fin (Nx * Ny)) : ContDiff ℝ 1 fun t => kerrPath o rho i0 j0 t k := by
  obtain ⟨⟨a, b⟩, rfl⟩ := finProdFinEquiv.surjective k
  simp only [kerrPath_eq]
  exact contDiff_const.add (contDiff_const.mul (epsPath_contDiff o rho i0 j0 _))

theorem kerrPath_hasDerivAt (o : Opt Nx Ny) (rho : Grid Nx Ny ℝ) (hb : o.beta ≠ 0) (i0 : Fin Nx) (j0 : Fin Ny) (k : Fin (Nx * Ny)) :
    HasDerivAt (fun t => kerrPath o rho i0 j0 t k) (flatten (fun i j => kerrSlope o.simulation.nonlinearity i j * dEps o rho i0 j0 i j) k) 0 := by
  obtain ⟨⟨a, b⟩, rfl⟩ := finProdFinEquiv.surjective k
  simp only [kerrPath_eq, flatten_pair]
  have := epsPath_hasDerivAt o rho hb i0 j0 (finProdFinEquiv (a, b))
  rw [flatten_pair] at this
  exact (this.const_mul _).const_add _

/-- The part of the Ez system matrix that does not depend on the permittivity. -/
noncomputable def baseMat (s : Sim Nx Ny) : Mat (Nx * Ny) ℂ := (construct_A s.omega s.xrange s.yrange (fun _ _ => 0 : Grid Nx Ny ℂ) s.NPML .Ez s.L0).1

theorem A_eq_base {s : Sim Nx Ny} (hv : s.Valid) (hp : s.pol = .Ez) :
    s.A = baseMat s + spdiag fun k => ((s.omega ^ 2 * EPSILON_0 * s.L0 : ℝ) : ℂ) * flatten s.eps_r k := by
  rw [hv.A_eq, hp, construct_A_Ez_split]
  unfold baseMat
  congr 3
  funext k
  push_cast
  ring

/-- `E` solves the Kerr system for the changed density iff `kerrG` vanishes. -/
theorem kerrMaxwell_iff_kerrG (o : Opt Nx Ny) (hv : o.simulation.Valid) (hp : o.simulation.pol = .Ez) (rho : Grid Nx Ny ℝ) (i0 : Fin Nx) (j0 : Fin Ny) (t : ℝ) (E : Grid Nx Ny ℂ) :
    Spec.KerrMaxwellEz (Spec.simAt o (Spec.bump rho i0 j0 t)) E ↔
      kerrG (baseMat o.simulation) ((o.simulation.omega ^ 2 * EPSILON_0 * o.simulation.L0 : ℝ) : ℂ) (epsPath o rho i0 j0) (kerrPath o rho i0 j0) o.simulation.rhs
        (t, flatten E) = 0 := by
  have hv' : (Spec.simAt o (Spec.bump rho i0 j0 t)).Valid := hv.set_eps_r _
  have hp' : (Spec.simAt o (Spec.bump rho i0 j0 t)).pol = .Ez := hp
  rw [kerrMaxwellEz_iff _ hv' hp']
  have hkey : bornMat (Spec.simAt o (Spec.bump rho i0 j0 t)) E *ᵥ flatten E - o.simulation.rhs =
      kerrG (baseMat o.simulation) ((o.simulation.omega ^ 2 * EPSILON_0 * o.simulation.L0 : ℝ) : ℂ) (epsPath o rho i0 j0) (kerrPath o rho i0 j0) o.simulation.rhs (t, flatten E) := by
    unfold bornMat
    rw [A_eq_base hv' hp', Matrix.add_mulVec, Matrix.add_mulVec, kerrMat_mulVec, spdiag_mulVec]
    refine flat_ext fun i j => ?_
    have hn : (((‖E i j‖ ^ 2 : ℝ)) : ℂ) = E i j * (starRingEnd ℂ) (E i j) := by
      rw [← Complex.normSq_eq_norm_sq, ← Complex.mul_conj]
    have hb : baseMat (Spec.simAt o (Spec.bump rho i0 j0 t)) = baseMat o.simulation := rfl
    have ho : (Spec.simAt o (Spec.bump rho i0 j0 t)).omega = o.simulation.omega := rfl
    have hL : (Spec.simAt o (Spec.bump rho i0 j0 t)).L0 = o.simulation.L0 := rfl
    have hn' : (Spec.simAt o (Spec.bump rho i0 j0 t)).nonlinearity = o.simulation.nonlinearity := rfl
    have he : (Spec.simAt o (Spec.bump rho i0 j0 t)).eps_r = fun i j => ((rho2eps (Spec.bump rho i0 j0 t) o.eps_m o.W o.eta o.beta i j : ℝ) : ℂ) := rfl
    simp only [kerrG, Pi.add_apply, Pi.sub_apply, mulVec_eq_sum', flatten_pair, hn, hb, ho, hL, hn', he, epsPath, kerrPath]
    ring
  have hr : (Spec.simAt o (Spec.bump rho i0 j0 t)).rhs = o.simulation.rhs := rfl
  rw [hr, ← hkey, sub_eq_zero]

/-- The nonlinear system is regular at `E`: its derivative `h ↦ A h + ω²ε₀ K (2|E|² h + E² conj h)` is injective (`K` the Kerr coefficient). -/
def Spec.KerrRegular (s : Sim Nx Ny) (E : Grid Nx Ny ℂ) : Prop :=
  ∀ h : Grid Nx Ny ℂ, (∀ i j, (s.A *ᵥ flatten h) (finProdFinEquiv (i, j)) + ((s.omega ^ 2 * EPSILON_0 * s.L0 : ℝ) : ℂ) * Spec.kerrSum s.nonlinearity s.eps_r i j *
    (2 * (E i j * (starRingEnd ℂ) (E i j)) * h i j + E i j * E i j * (starRingEnd ℂ) (h i j)) = 0) → h = 0

/-- Implicit function theorem for the Kerr system. -/
theorem kerr_branch (o : Opt Nx Ny) (hv : o.simulation.Valid) (hp : o.simulation.pol = .Ez) (rho : Grid Nx Ny ℝ)
    (heps : o.simulation.eps_r = fun i j => ((rho2eps rho o.eps_m o.W o.eta o.beta i j : ℝ) : ℂ)) (hb : o.beta ≠ 0) (E0 : Grid Nx Ny ℂ)
    (hE0 : Spec.KerrMaxwellEz o.simulation E0) (hreg : Spec.KerrRegular o.simulation E0) (i0 : Fin Nx) (j0 : Fin Ny) :
    (∃ E : ℝ → Grid Nx Ny ℂ, E 0 = E0 ∧ ContinuousAt E 0 ∧ ∀ᶠ t in 𝓝 (0 : ℝ), Spec.KerrMaxwellEz (Spec.simAt o (Spec.bump rho i0 j0 t)) (E t)) ∧
    ∀ E : ℝ → Grid Nx Ny ℂ, E 0 = E0 → ContinuousAt E 0 → (∀ᶠ t in 𝓝 (0 : ℝ), Spec.KerrMaxwellEz (Spec.simAt o (Spec.bump rho i0 j0 t)) (E t)) →
      ∃ E' : Grid Nx Ny ℂ, HasDerivAt E E' 0 ∧ ∀ i j, (o.simulation.A *ᵥ flatten E') (finProdFinEquiv (i, j)) +
        ((o.simulation.omega ^ 2 * EPSILON_0 * o.simulation.L0 : ℝ) : ℂ) * Spec.kerrSum o.simulation.nonlinearity o.simulation.eps_r i j *
          (2 * (E0 i j * (starRingEnd ℂ) (E0 i j)) * E' i j + E0 i j * E0 i j * (starRingEnd ℂ) (E' i j)) =
        -(((o.simulation.omega ^ 2 * EPSILON_0 * o.simulation.L0 : ℝ) : ℂ) * ((1 + (o.simulation.compute_nl E0).dnl_deps i j) * dEps o rho i0 j0 i j) * E0 i j) := by
  set s := o.simulation with hs
  set c : ℂ := ((s.omega ^ 2 * EPSILON_0 * s.L0 : ℝ) : ℂ) with hc
  have h00 : Spec.simAt o (Spec.bump rho i0 j0 0) = s.set_eps_r s.eps_r := by
    unfold Spec.simAt
    rw [bump_zero, heps]
  have hmax0 : Spec.KerrMaxwellEz (Spec.simAt o (Spec.bump rho i0 j0 0)) E0 := by
    rw [h00, kerrMaxwellEz_iff _ (hv.set_eps_r _) hp]
    rw [kerrMaxwellEz_iff _ hv hp] at hE0
    have hA : (s.set_eps_r s.eps_r).A = s.A := by rw [hv.A_eq]; rfl
    have hk : kerrMat (s.set_eps_r s.eps_r) E0 = kerrMat s E0 := rfl
    unfold bornMat at hE0 ⊢
    rw [hA, hk]
    exact hE0
  have hG0 := (kerrMaxwell_iff_kerrG o hv hp rho i0 j0 0 E0).1 hmax0
  have hcd := contDiff_kerrG (baseMat s) c s.rhs (epsPath_contDiff o rho i0 j0) (kerrPath_contDiff o rho i0 j0)
  have he0 : ∀ i j, epsPath o rho i0 j0 0 (finProdFinEquiv (i, j)) = s.eps_r i j := by
    intro i j
    simp only [epsPath, flatten_pair, bump_zero, heps]
  have hk0 : ∀ i j, kerrPath o rho i0 j0 0 (finProdFinEquiv (i, j)) = Spec.kerrSum s.nonlinearity s.eps_r i j := by
    intro i j
    simp only [kerrPath, flatten_pair, bump_zero, ← heps, ← hs]
  have hAi : ∀ (h : Grid Nx Ny ℂ) (i : Fin Nx) (j : Fin Ny), (s.A *ᵥ flatten h) (finProdFinEquiv (i, j)) =
      ∑ l, baseMat s (finProdFinEquiv (i, j)) l * flatten h l + c * s.eps_r i j * h i j := by
    intro h i j
    rw [A_eq_base hv hp, Matrix.add_mulVec, spdiag_mulVec]
    simp only [Pi.add_apply, mulVec_eq_sum', flatten_pair, ← hc]
  have hfd := fun (h : Grid Nx Ny ℂ) (τ : ℝ) (i : Fin Nx) (j : Fin Ny) =>
    fderiv_kerrG (baseMat s) c s.rhs (epsPath_contDiff o rho i0 j0) (kerrPath_contDiff o rho i0 j0) (epsPath_hasDerivAt o rho hb i0 j0)
      (kerrPath_hasDerivAt o rho hb i0 j0) (flatten E0) (flatten h) τ (finProdFinEquiv (i, j))
  simp only [flatten_pair, he0, hk0] at hfd
  have hinj : ∀ h : Vec (Nx * Ny) ℂ, fderiv ℝ (kerrG (baseMat s) c (epsPath o rho i0 j0) (kerrPath o rho i0 j0) s.rhs) (0, flatten E0) (0, h) = 0 → h = 0 := by
    intro h hh
    have hg : unflatten h = (0 : Grid Nx Ny ℂ) := by
      refine hreg (unflatten h) fun i j => ?_
      have h1 := hfd (unflatten h) 0 i j
      rw [flatten_unflatten, hh] at h1
      simp only [Pi.zero_apply, Complex.ofReal_zero, zero_mul, zero_add] at h1
      rw [hAi, flatten_unflatten]
      linear_combination -h1
    have : h = flatten (unflatten h : Grid Nx Ny ℂ) := (flatten_unflatten h).symm
    rw [this, hg]
    rfl
  obtain ⟨⟨E, hE1, hE2, hE3⟩, huniq⟩ := implicit_branch _ (flatten E0) hcd hG0 hinj
  have hflat : ∀ {F : ℝ → Grid Nx Ny ℂ}, ContinuousAt F 0 → ContinuousAt (fun t => (flatten (F t) : Vec (Nx * Ny) ℂ)) 0 := by
    intro F hF
    refine continuousAt_pi.2 fun k => ?_
    exact (continuousAt_pi.1 (continuousAt_pi.1 hF _) _)
  constructor
  · refine ⟨fun t => unflatten (E t), ?_, ?_, ?_⟩
    · simp only [hE1, unflatten_flatten]
    · refine continuousAt_pi.2 fun i => continuousAt_pi.2 fun j => ?_
      exact continuousAt_pi.1 hE2 _
    · filter_upwards [hE3] with t ht
      rw [kerrMaxwell_iff_kerrG o hv hp, flatten_unflatten]
      exact ht
  · intro F hF0 hFc hF
    obtain ⟨V', hV', hVe⟩ := huniq (fun t => flatten (F t)) (by simp only [hF0]) (hflat hFc) (by
      filter_upwards [hF] with t ht
      exact (kerrMaxwell_iff_kerrG o hv hp rho i0 j0 t (F t)).1 ht)
    refine ⟨unflatten V', ?_, ?_⟩
    · refine hasDerivAt_pi.2 fun i => hasDerivAt_pi.2 fun j => ?_
      have := hasDerivAt_pi.1 hV' (finProdFinEquiv (i, j))
      simp only [flatten_pair] at this
      exact this
    · intro i j
      have h1 := hfd (unflatten V') 1 i j
      rw [flatten_unflatten, hVe] at h1
      simp only [Pi.zero_apply, Complex.ofReal_one, one_mul] at h1
      rw [hAi, flatten_unflatten, dnl_deps_slope]
      linear_combination -h1

end Angler
