import Verif.Lemmas.Layers
import Verif.Props.OneD
import Verif.Props.Uniform
import Verif.Props.Transpose

/-! # C97: absorbing layers remove resonances -/

namespace Angler

open Matrix

variable {Nx Ny n : ℕ}

/-! ## Specification -/

/-- A field across a guide (permittivity profile `eps` on a ring of `n` cells of size `h`) that does not vary along the guide and needs no source: a mode at its cut-off frequency. -/
def Spec.Cutoff (pol : Pol) (omega mu h : ℝ) (eps : Fin n → ℂ) : Prop :=
  ∃ w : Fin n → ℂ, w ≠ 0 ∧ ∀ j, match pol with
    | .Ez => (w (Spec.next j) - 2 * w j + w (Spec.prev j)) / (h : ℂ) ^ 2 + (omega : ℂ) ^ 2 * mu * eps j * w j = 0
    | .Hz => ((w (Spec.next j) - w j) / ((eps j + eps (Spec.next j)) / 2) - (w j - w (Spec.prev j)) / ((eps (Spec.prev j) + eps j) / 2)) / (h : ℂ) ^ 2 + (omega : ℂ) ^ 2 * mu * w j = 0

/-- The material of a guide: passive for Ez; lossless with positive permittivity for Hz. -/
def Spec.GuideMaterial (pol : Pol) (e : Fin n → ℂ) : Prop := match pol with
  | .Ez => ∀ j, e j ≠ 0 ∧ (e j).im ≤ 0
  | .Hz => ∀ j, 0 < (e j).re ∧ (e j).im = 0

/-- `solve_fields` returns the field of the source, and there is no other. -/
def Spec.OneField (s : Sim Nx Ny) : Prop := ∀ (env : Env) (_ : env.Exact) (avg : Bool), ∃ X Y Z, (s.solve_fields env false avg).1 = .ok (X, Y, Z) ∧ s.A *ᵥ flatten Z = s.rhs ∧
  ∀ W, s.A *ᵥ flatten W = s.rhs → W = Z

/-! ## Lemmas -/

theorem one_field (s : Sim Nx Ny) (hd : s.A.det ≠ 0) : Spec.OneField s := by
  intro env he avg
  have h3 : (s.in_plane avg s.eps_r (solver_direct env s.A s.rhs)).2.2 = unflatten (solver_direct env s.A s.rhs) := by
    unfold Sim.in_plane
    cases s.pol <;> rfl
  refine ⟨_, _, unflatten (solver_direct env s.A s.rhs), by rw [← h3]; rfl, ?_, fun W hW => ?_⟩
  · rw [flatten_unflatten, solver_direct_spec he (Or.inl hd)]
  · rw [solver_direct_unique he hd hW, unflatten_flatten]

theorem exists_kernel {m : ℕ} {A : Mat m ℂ} (h : A.det = 0) : ∃ v, v ≠ 0 ∧ A *ᵥ v = 0 := Matrix.exists_mulVec_eq_zero_iff.2 h

theorem kernel_grid {A : Mat (Nx * Ny) ℂ} (h : A.det = 0) : ∃ f : Grid Nx Ny ℂ, f ≠ 0 ∧ A *ᵥ flatten f = 0 := by
  obtain ⟨v, hv, h1⟩ := exists_kernel h
  refine ⟨unflatten v, fun h0 => hv ?_, by rw [flatten_unflatten]; exact h1⟩
  rw [← flatten_unflatten (Nx := Nx) (Ny := Ny) v, h0]
  rfl

theorem det_zero_of {A : Mat (Nx * Ny) ℂ} {f : Grid Nx Ny ℂ} (hf : f ≠ 0) (h : A *ᵥ flatten f = 0) : A.det = 0 :=
  Matrix.exists_mulVec_eq_zero_iff.1 ⟨flatten f, fun h0 => hf (flatten_eq_zero.1 h0), h⟩

/-- With layers at the ends of a passive guide, a field that needs no source does not vary along the guide. -/
theorem guide_cutoff {m n : ℕ} (ax bx : Fin m → ℂ) (ha : Absorbing ax) (hb : Absorbing bx) (hm : 0 < m) (ha0 : (ax ⟨0, hm⟩).im < 0) (hb0 : (bx ⟨0, hm⟩).im < 0) (T : Module.End ℂ (Fin n → ℂ))
    (hT : ∀ (l : ℂ) (w : Fin n → ℂ), w ≠ 0 → (∀ j, T w j = l * w j) → l.im ≤ 0) (f : Grid m n ℂ) (hf : f ≠ 0)
    (h : ∀ i j, ringLap (fun _ => 1) ax bx (fun i => f i j) i + T (f i) j = 0) : ∃ w : Fin n → ℂ, w ≠ 0 ∧ ∀ j, T w j = 0 := by
  obtain ⟨l, u, w, hu, hw, h1, h2⟩ := split_axes ax bx T f hf h
  obtain ⟨h3, h4⟩ := ring_eigen ax bx u l ha hb h1 hu
  have h5 := h4 hm ha0 hb0 (le_antisymm (hT l w hw h2) h3)
  exact ⟨w, hw, fun j => by rw [h2 j, h5, zero_mul]⟩

theorem ones_absorbing : Absorbing (fun _ : Fin n => (1 : ℂ)) := fun _ => ⟨rfl, le_refl _⟩

/-- Passive profiles: eigenvalues of the transverse operator, polarisation Ez. -/
theorem guideOp_passive (k : Fin n → ℂ) (hk : ∀ j, (k j).im ≤ 0) (l : ℂ) (w : Fin n → ℂ) (hw : w ≠ 0)
    (h : ∀ j, guideOp (fun _ => 1) (fun _ => 1) (fun _ => 1) k (fun _ => 1) w j = l * w j) : l.im ≤ 0 := by
  have h1 : ∀ j, ringLap (fun _ => 1) (fun _ => 1) (fun _ => 1) w j = -((k j - l) * w j) := by
    intro j
    have h2 : 1 * ringLap (fun _ => 1) (fun _ => 1) (fun _ => 1) w j + k j * w j = l * w j := h j
    linear_combination h2
  have he := congrArg Complex.im (ring_energy _ _ _ _ w (fun _ => one_ne_zero) h1)
  rw [Complex.im_sum, Complex.im_sum] at he
  have e1 : ∑ j, ((1 : ℂ) / 1 * (Complex.normSq (w j - w (Spec.prev j)) : ℂ)).im = 0 := by
    refine Finset.sum_eq_zero fun j _ => ?_
    rw [div_one, one_mul, Complex.ofReal_im]
  have e2 : ∑ j, ((1 : ℂ) * (k j - l) * (Complex.normSq (w j) : ℂ)).im = ∑ j, (k j).im * Complex.normSq (w j) - l.im * ∑ j, Complex.normSq (w j) := by
    rw [Finset.mul_sum, ← Finset.sum_sub_distrib]
    refine Finset.sum_congr rfl fun j _ => ?_
    rw [Complex.im_mul_ofReal, one_mul, Complex.sub_im]
    ring
  rw [e1, e2] at he
  have hM : 0 < ∑ j, Complex.normSq (w j) := by
    obtain ⟨i, hi⟩ := Function.ne_iff.1 hw
    exact Finset.sum_pos' (fun i _ => Complex.normSq_nonneg _) ⟨i, Finset.mem_univ _, Complex.normSq_pos.2 hi⟩
  have hS : ∑ j, (k j).im * Complex.normSq (w j) ≤ 0 := Finset.sum_nonpos fun j _ => mul_nonpos_of_nonpos_of_nonneg (hk j) (Complex.normSq_nonneg _)
  by_contra hc
  push Not at hc
  have := mul_pos hc hM
  linarith

/-- Lossless profiles: eigenvalues of the transverse operator, polarisation Hz. -/
theorem guideOp_lossless (c k m : Fin n → ℝ) (hm : ∀ j, 0 < m j) (l : ℂ) (w : Fin n → ℂ) (hw : w ≠ 0)
    (h : ∀ j, guideOp (fun j => (c j : ℂ)) (fun _ => 1) (fun _ => 1) (fun j => (k j : ℂ)) (fun j => (m j : ℂ)) w j = l * w j) : l.im ≤ 0 := by
  have h1 : ∀ j, ringLap (fun j => (c j : ℂ)) (fun _ => 1) (fun _ => 1) w j = -(((k j - l) / m j) * w j) := by
    intro j
    have h2 : (m j : ℂ) * ringLap (fun j => (c j : ℂ)) (fun _ => 1) (fun _ => 1) w j + k j * w j = l * w j := h j
    have hmj : (m j : ℂ) ≠ 0 := by exact_mod_cast (hm j).ne'
    generalize ringLap (fun j => (c j : ℂ)) (fun _ => 1) (fun _ => 1) w j = R at h2 ⊢
    field_simp
    linear_combination h2
  have he := congrArg Complex.im (ring_energy _ _ _ _ w (fun _ => one_ne_zero) h1)
  rw [Complex.im_sum, Complex.im_sum] at he
  have e1 : ∑ j, ((c j : ℂ) / 1 * (Complex.normSq (w j - w (Spec.prev j)) : ℂ)).im = 0 := by
    refine Finset.sum_eq_zero fun j _ => ?_
    rw [div_one, Complex.im_ofReal_mul, Complex.ofReal_im, mul_zero]
  have e2 : ∑ j, ((1 : ℂ) * ((k j - l) / m j) * (Complex.normSq (w j) : ℂ)).im = -(l.im * ∑ j, Complex.normSq (w j) / m j) := by
    rw [Finset.mul_sum, ← Finset.sum_neg_distrib]
    refine Finset.sum_congr rfl fun j _ => ?_
    rw [Complex.im_mul_ofReal, one_mul, Complex.div_ofReal_im, Complex.sub_im, Complex.ofReal_im]
    ring
  rw [e1, e2, neg_eq_zero] at he
  have hM : 0 < ∑ j, Complex.normSq (w j) / m j := by
    obtain ⟨i, hi⟩ := Function.ne_iff.1 hw
    exact Finset.sum_pos' (fun i _ => div_nonneg (Complex.normSq_nonneg _) (hm i).le) ⟨i, Finset.mem_univ _, div_pos (Complex.normSq_pos.2 hi) (hm i)⟩
  exact ((mul_eq_zero.1 he).resolve_right hM.ne').le

theorem facX_first (s : Sim Nx Ny) (hv : s.Valid) (hd : 0 < s.dl) (hx : 0 < Nx) (hP : 1 ≤ s.NPML.1) (d : Dir) : (facX s d ⟨0, hx⟩).im < 0 := by
  have hr : s.xrange.1 < s.xrange.2 := by rw [hv.xr]; exact mul_pos (by exact_mod_cast hx) hd
  exact sfactor_first hr hv.L0_pos hv.omega_pos d hP hx

theorem facY_first (s : Sim Nx Ny) (hv : s.Valid) (hd : 0 < s.dl) (hy : 0 < Ny) (hP : 1 ≤ s.NPML.2) (d : Dir) : (facY s d ⟨0, hy⟩).im < 0 := by
  have hr : s.yrange.1 < s.yrange.2 := by rw [hv.yr]; exact mul_pos (by exact_mod_cast hy) hd
  exact sfactor_first hr hv.L0_pos hv.omega_pos d hP hy

theorem facX_none (s : Sim Nx Ny) (hP : s.NPML.1 = 0) (d : Dir) : facX s d = fun _ => 1 := by
  funext i
  unfold facX
  rw [hP, sfactor_zero]

theorem facY_none (s : Sim Nx Ny) (hP : s.NPML.2 = 0) (d : Dir) : facY s d = fun _ => 1 := by
  funext i
  unfold facY
  rw [hP, sfactor_zero]

/-! ## Uniform media -/

/-- **C97, layers on both axes.** In a uniform passive medium with layers along both axes the system is nonsingular at every frequency, for either polarisation and every resolution: every source has
exactly one field and `solve_fields` returns it. -/
theorem C97_uniform (s : Sim Nx Ny) (hv : s.Valid) (hd : 0 < s.dl) (hx : 1 < Nx) (hy : 1 < Ny) (hPx : 1 ≤ s.NPML.1) (hPy : 1 ≤ s.NPML.2) (e : ℂ) (he : ∀ i j, s.eps_r i j = e) (he0 : e ≠ 0)
    (hp : e.im ≤ 0) : s.A.det ≠ 0 ∧ Spec.OneField s := by
  have hdet : s.A.det ≠ 0 := by
    intro h0
    obtain ⟨f, hf, h1⟩ := kernel_grid h0
    rw [uniform_kernel s hv hd hx hy e he he0] at h1
    set κ : ℂ := (s.omega : ℂ) ^ 2 * ((MU_0 * s.L0 : ℝ) : ℂ) * (((EPSILON_0 * s.L0 : ℝ) : ℂ) * e) * (s.dl : ℂ) ^ 2 with hκ
    have hk : κ = ((s.omega ^ 2 * (MU_0 * s.L0) * (EPSILON_0 * s.L0) * s.dl ^ 2 : ℝ) : ℂ) * e := by rw [hκ]; push_cast; ring
    have hpos : 0 < s.omega ^ 2 * (MU_0 * s.L0) * (EPSILON_0 * s.L0) * s.dl ^ 2 := by
      have := hv.omega_pos; have := MU_0_pos; have := EPSILON_0_pos; have := hv.L0_pos
      positivity
    have hk0 : κ ≠ 0 := by rw [hk]; exact mul_ne_zero (by exact_mod_cast hpos.ne') he0
    have hki : κ.im ≤ 0 := by rw [hk, Complex.im_ofReal_mul]; exact mul_nonpos_of_nonneg_of_nonpos hpos.le hp
    have hYf := facY_absorbing s hv hd (by omega) .f
    have hYb := facY_absorbing s hv hd (by omega) .b
    obtain ⟨w, hw, h2⟩ := guide_cutoff (facX s .f) (facX s .b) (facX_absorbing s hv hd (by omega) .f) (facX_absorbing s hv hd (by omega) .b) (by omega) (facX_first s hv hd (by omega) hPx .f)
      (facX_first s hv hd (by omega) hPx .b) (guideOp (fun _ => 1) (facY s .f) (facY s .b) (fun _ => κ) (fun _ => 1))
      (fun l w hw h => by
        have h3 : ∀ j, ringLap (fun _ => 1) (facY s .f) (facY s .b) w j = -((κ - l) * w j) := by
          intro j
          have h4 : 1 * ringLap (fun _ => 1) (facY s .f) (facY s .b) w j + κ * w j = l * w j := h j
          linear_combination h4
        have h5 := (ring_eigen _ _ w _ hYf hYb h3 hw).1
        rw [Complex.sub_im] at h5
        linarith) f hf
      (fun i j => by
        show ringLap (fun _ => 1) (facX s .f) (facX s .b) (fun i => f i j) i + (1 * ringLap (fun _ => 1) (facY s .f) (facY s .b) (f i) j + κ * f i j) = 0
        linear_combination h1 i j)
    have h3 : ∀ j, ringLap (fun _ => 1) (facY s .f) (facY s .b) w j = -(κ * w j) := by
      intro j
      have h4 : 1 * ringLap (fun _ => 1) (facY s .f) (facY s .b) w j + κ * w j = 0 := h2 j
      linear_combination h4
    have h5 := ring_eigen _ _ w _ hYf hYb h3 hw
    exact hk0 (h5.2 (by omega) (facY_first s hv hd (by omega) hPy .f) (facY_first s hv hd (by omega) hPy .b) (le_antisymm hki h5.1))
  exact ⟨hdet, one_field s hdet⟩

/-! ## Straight guides with layers at their ends -/

/-- The operator across a guide, with a factor `e` in front for Hz. -/
noncomputable def transOp (pol : Pol) (omega mu h : ℝ) (E : ℂ) (e sf sb : Fin n → ℂ) : Module.End ℂ (Fin n → ℂ) := match pol with
  | .Ez => guideOp (fun _ => 1) sf sb (fun j => (omega : ℂ) ^ 2 * mu * (E * e j) * (h : ℂ) ^ 2) (fun _ => 1)
  | .Hz => guideOp (fun j => 1 / (E * ((e (Spec.prev j) + e j) / 2))) sf sb (fun j => (omega : ℂ) ^ 2 * mu * (E * e j) * (h : ℂ) ^ 2) (fun j => E * e j)

/-- The stencil of a guide along `x`. -/
theorem guide_kernel_x (s : Sim Nx Ny) (hv : s.Valid) (hd : 0 < s.dl) (hx : 1 < Nx) (hy : 1 < Ny) (e : Fin Ny → ℂ) (he : ∀ i j, s.eps_r i j = e j) (he0 : ∀ j, e j ≠ 0) (f : Grid Nx Ny ℂ) :
    s.A *ᵥ flatten f = 0 ↔ ∀ i j, ringLap (fun _ => 1) (facX s .f) (facX s .b) (fun i => f i j) i +
      transOp s.pol s.omega (MU_0 * s.L0) s.dl ((EPSILON_0 * s.L0 : ℝ) : ℂ) e (facY s .f) (facY s .b) (f i) j = 0 := by
  have hd' : (s.dl : ℂ) ≠ 0 := by exact_mod_cast hd.ne'
  have hM : ((MU_0 * s.L0 : ℝ) : ℂ) ≠ 0 := by exact_mod_cast (mul_pos MU_0_pos hv.L0_pos).ne'
  have hE : ((EPSILON_0 * s.L0 : ℝ) : ℂ) ≠ 0 := by exact_mod_cast (mul_pos EPSILON_0_pos hv.L0_pos).ne'
  rw [stencil_apply s hv hd.ne' hx hy, flatten_eq_zero]
  have hfun : ∀ (P Q : Grid Nx Ny ℂ), (∀ i j, P i j = 0 ↔ Q i j = 0) → (P = 0 ↔ ∀ i j, Q i j = 0) := by
    intro P Q h
    exact ⟨fun hP i j => (h i j).1 (congrFun (congrFun hP i) j), fun hQ => funext fun i => funext fun j => (h i j).2 (hQ i j)⟩
  cases hp : s.pol
  · refine hfun _ _ fun i j => ?_
    show _ ↔ ringLap (fun _ => 1) (facX s .f) (facX s .b) (fun i => f i j) i + (1 * ringLap (fun _ => 1) (facY s .f) (facY s .b) (f i) j +
      (s.omega : ℂ) ^ 2 * ((MU_0 * s.L0 : ℝ) : ℂ) * (((EPSILON_0 * s.L0 : ℝ) : ℂ) * e j) * (s.dl : ℂ) ^ 2 * f i j) = 0
    have hlap : ∀ (m : ℕ) (c : ℂ) (sf sb u : Fin m → ℂ) (i : Fin m), ringLap (fun _ => c) sf sb u i = c * ringLap (fun _ => 1) sf sb u i := by
      intro m c sf sb u i
      simp only [ringLap]
      ring
    simp only [coefX, coefY, massOf, hp, he]
    rw [hlap Nx, hlap Ny]
    generalize ((MU_0 * s.L0 : ℝ) : ℂ) = M at *
    generalize ((EPSILON_0 * s.L0 : ℝ) : ℂ) = E at *
    generalize ringLap (fun _ => 1) (facX s .f) (facX s .b) (fun i => f i j) i = A
    generalize ringLap (fun _ => 1) (facY s .f) (facY s .b) (f i) j = B
    have e1 : (1 / M * A + 1 / M * B) / (s.dl : ℂ) ^ 2 + (s.omega : ℂ) ^ 2 * (E * e j) * f i j =
        1 / (M * (s.dl : ℂ) ^ 2) * (A + (1 * B + (s.omega : ℂ) ^ 2 * M * (E * e j) * (s.dl : ℂ) ^ 2 * f i j)) := by
      field_simp
      ring
    rw [e1, mul_eq_zero, or_iff_right (one_div_ne_zero (mul_ne_zero hM (pow_ne_zero 2 hd')))]
  · refine hfun _ _ fun i j => ?_
    show _ ↔ ringLap (fun _ => 1) (facX s .f) (facX s .b) (fun i => f i j) i + (((EPSILON_0 * s.L0 : ℝ) : ℂ) * e j *
      ringLap (fun j => 1 / (((EPSILON_0 * s.L0 : ℝ) : ℂ) * ((e (Spec.prev j) + e j) / 2))) (facY s .f) (facY s .b) (f i) j +
      (s.omega : ℂ) ^ 2 * ((MU_0 * s.L0 : ℝ) : ℂ) * (((EPSILON_0 * s.L0 : ℝ) : ℂ) * e j) * (s.dl : ℂ) ^ 2 * f i j) = 0
    have hX : ∀ i, coefX s i j = 1 / (((EPSILON_0 * s.L0 : ℝ) : ℂ) * e j) := by
      intro i
      simp only [coefX, hp, grid_average, he]
      rw [show (e j + e j) / 2 = e j by ring]
    have hY : ∀ j, coefY s i j = 1 / (((EPSILON_0 * s.L0 : ℝ) : ℂ) * ((e (Spec.prev j) + e j) / 2)) := by
      intro j
      simp only [coefY, hp, grid_average, he]
      rfl
    have hlap : ∀ (m : ℕ) (c : ℂ) (sf sb u : Fin m → ℂ) (i : Fin m), ringLap (fun _ => c) sf sb u i = c * ringLap (fun _ => 1) sf sb u i := by
      intro m c sf sb u i
      simp only [ringLap]
      ring
    simp only [hX, hY]
    rw [hlap Nx]
    simp only [massOf, hp]
    have hj := he0 j
    generalize ((MU_0 * s.L0 : ℝ) : ℂ) = M at *
    generalize ringLap (fun _ => 1) (facX s .f) (facX s .b) (fun i => f i j) i = A
    generalize ringLap (fun j => 1 / (((EPSILON_0 * s.L0 : ℝ) : ℂ) * ((e (Spec.prev j) + e j) / 2))) (facY s .f) (facY s .b) (f i) j = B
    generalize ((EPSILON_0 * s.L0 : ℝ) : ℂ) = E at *
    have e1 : (1 / (E * e j) * A + B) / (s.dl : ℂ) ^ 2 + (s.omega : ℂ) ^ 2 * M * f i j =
        1 / (E * e j * (s.dl : ℂ) ^ 2) * (A + (E * e j * B + (s.omega : ℂ) ^ 2 * M * (E * e j) * (s.dl : ℂ) ^ 2 * f i j)) := by
      field_simp
      ring
    rw [e1, mul_eq_zero, or_iff_right (one_div_ne_zero (mul_ne_zero (mul_ne_zero hE hj) (pow_ne_zero 2 hd')))]

/-- A field across the guide that the transverse operator annihilates is a mode at cut-off. -/
theorem cutoff_iff (pol : Pol) (omega mu h : ℝ) (hh : h ≠ 0) (E : ℂ) (hE : E ≠ 0) (e : Fin n → ℂ) (he0 : ∀ j, e j ≠ 0) :
    Spec.Cutoff pol omega mu h (fun j => E * e j) ↔ ∃ w : Fin n → ℂ, w ≠ 0 ∧ ∀ j, transOp pol omega mu h E e (fun _ => 1) (fun _ => 1) w j = 0 := by
  have hh' : (h : ℂ) ^ 2 ≠ 0 := pow_ne_zero 2 (by exact_mod_cast hh)
  unfold Spec.Cutoff
  refine exists_congr fun w => and_congr_right fun _ => forall_congr' fun j => ?_
  cases pol
  · show _ ↔ 1 * ringLap (fun _ => 1) (fun _ => 1) (fun _ => 1) w j + (omega : ℂ) ^ 2 * mu * (E * e j) * (h : ℂ) ^ 2 * w j = 0
    simp only [ringLap]
    have e1 : (w (Spec.next j) - 2 * w j + w (Spec.prev j)) / (h : ℂ) ^ 2 + (omega : ℂ) ^ 2 * mu * (E * e j) * w j =
        1 / (h : ℂ) ^ 2 * (1 * ((1 * ((w (Spec.next j) - w j) / 1) - 1 * ((w j - w (Spec.prev j)) / 1)) / 1) + (omega : ℂ) ^ 2 * mu * (E * e j) * (h : ℂ) ^ 2 * w j) := by
      rw [div_one, div_one, div_one, one_mul, one_mul, one_mul, mul_add, ← mul_assoc (1 / (h : ℂ) ^ 2), one_div, div_eq_inv_mul]
      generalize (h : ℂ) ^ 2 = H at hh' ⊢
      field_simp
      ring
    rw [e1, mul_eq_zero, or_iff_right (one_div_ne_zero hh')]
  · show _ ↔ E * e j * ringLap (fun j => 1 / (E * ((e (Spec.prev j) + e j) / 2))) (fun _ => 1) (fun _ => 1) w j + (omega : ℂ) ^ 2 * mu * (E * e j) * (h : ℂ) ^ 2 * w j = 0
    simp only [ringLap, prev_next]
    have e0 : ∀ a b : ℂ, E * ((a + b) / 2) = (E * a + E * b) / 2 := fun a b => by ring
    rw [e0, e0]
    generalize (E * e j + E * e (Spec.next j)) / 2 = A
    generalize (E * e (Spec.prev j) + E * e j) / 2 = B
    have hEe : E * e j ≠ 0 := mul_ne_zero hE (he0 j)
    generalize E * e j = C at hEe ⊢
    have e1 : C * ((1 / A * ((w (Spec.next j) - w j) / 1) - 1 / B * ((w j - w (Spec.prev j)) / 1)) / 1) + (omega : ℂ) ^ 2 * mu * C * (h : ℂ) ^ 2 * w j =
        C * (h : ℂ) ^ 2 * (((w (Spec.next j) - w j) / A - (w j - w (Spec.prev j)) / B) / (h : ℂ) ^ 2 + (omega : ℂ) ^ 2 * mu * w j) := by
      rw [div_one, div_one, div_one, mul_add, mul_assoc C, mul_div_cancel₀ _ hh']
      ring
    rw [e1, mul_eq_zero, or_iff_right (mul_ne_zero hEe hh')]

/-- The transverse operator annihilates `w`: the field `w` at every position along the guide needs no source. -/
theorem ringLap_const (sf sb : Fin n → ℂ) (a : ℂ) (i : Fin n) : ringLap (fun _ => 1) sf sb (fun _ => a) i = 0 := by
  simp only [ringLap, sub_self, zero_div, mul_zero]

/-- **C97, straight guides along `x`.** If the permittivity does not vary along `x` and layers close the two ends, the system is singular exactly at the cut-off frequencies of the modes of the guide. -/
theorem C97_guide_x (s : Sim Nx Ny) (hv : s.Valid) (hd : 0 < s.dl) (hx : 1 < Nx) (hy : 1 < Ny) (hPx : 1 ≤ s.NPML.1) (hPy : s.NPML.2 = 0) (e : Fin Ny → ℂ) (he : ∀ i j, s.eps_r i j = e j)
    (hp : Spec.GuideMaterial s.pol e) :
    s.A.det = 0 ↔ Spec.Cutoff s.pol s.omega (MU_0 * s.L0) s.dl (fun j => ((EPSILON_0 * s.L0 : ℝ) : ℂ) * e j) := by
  have hM : 0 < MU_0 * s.L0 := mul_pos MU_0_pos hv.L0_pos
  have hE : 0 < EPSILON_0 * s.L0 := mul_pos EPSILON_0_pos hv.L0_pos
  have hE' : ((EPSILON_0 * s.L0 : ℝ) : ℂ) ≠ 0 := by exact_mod_cast hE.ne'
  have ho := hv.omega_pos
  have he0 : ∀ j, e j ≠ 0 := by
    intro j h0
    unfold Spec.GuideMaterial at hp
    cases hpol : s.pol <;> rw [hpol] at hp
    · exact (hp j).1 h0
    · have := (hp j).1
      rw [h0] at this
      exact lt_irrefl _ this
  rw [cutoff_iff s.pol s.omega (MU_0 * s.L0) s.dl hd.ne' _ hE' e he0]
  constructor
  · intro h0
    obtain ⟨f, hf, h1⟩ := kernel_grid h0
    rw [guide_kernel_x s hv hd hx hy e he he0, facY_none s hPy, facY_none s hPy] at h1
    refine guide_cutoff (facX s .f) (facX s .b) (facX_absorbing s hv hd (by omega) .f) (facX_absorbing s hv hd (by omega) .b) (by omega) (facX_first s hv hd (by omega) hPx .f)
      (facX_first s hv hd (by omega) hPx .b) _ ?_ f hf h1
    intro l w hw h
    unfold Spec.GuideMaterial at hp
    cases hpol : s.pol <;> rw [hpol] at h hp
    · refine guideOp_passive _ (fun j => ?_) l w hw h
      rw [show (s.omega : ℂ) ^ 2 * ((MU_0 * s.L0 : ℝ) : ℂ) * (((EPSILON_0 * s.L0 : ℝ) : ℂ) * e j) * (s.dl : ℂ) ^ 2 =
        ((s.omega ^ 2 * (MU_0 * s.L0) * (EPSILON_0 * s.L0) * s.dl ^ 2 : ℝ) : ℂ) * e j by push_cast; ring, Complex.im_ofReal_mul]
      exact mul_nonpos_of_nonneg_of_nonpos (by positivity) (hp j).2
    · have hre : ∀ j, e j = ((e j).re : ℂ) := fun j => Complex.ext rfl (by rw [Complex.ofReal_im]; exact (hp j).2)
      refine guideOp_lossless (fun j => 1 / ((EPSILON_0 * s.L0) * (((e (Spec.prev j)).re + (e j).re) / 2))) (fun j => s.omega ^ 2 * (MU_0 * s.L0) * (EPSILON_0 * s.L0 * (e j).re) * s.dl ^ 2)
        (fun j => EPSILON_0 * s.L0 * (e j).re) (fun j => mul_pos hE (hp j).1) l w hw ?_
      have ht : guideOp (fun j => ((1 / ((EPSILON_0 * s.L0) * (((e (Spec.prev j)).re + (e j).re) / 2)) : ℝ) : ℂ)) (fun _ => 1) (fun _ => 1)
          (fun j => ((s.omega ^ 2 * (MU_0 * s.L0) * (EPSILON_0 * s.L0 * (e j).re) * s.dl ^ 2 : ℝ) : ℂ)) (fun j => ((EPSILON_0 * s.L0 * (e j).re : ℝ) : ℂ)) =
          transOp .Hz s.omega (MU_0 * s.L0) s.dl ((EPSILON_0 * s.L0 : ℝ) : ℂ) e (fun _ => 1) (fun _ => 1) := by
        unfold transOp
        congr 1
        · funext j
          rw [hre (Spec.prev j), hre j]
          push_cast
          simp only [Complex.ofReal_re]
        · funext j
          rw [hre j]
          push_cast
          simp only [Complex.ofReal_re]
        · funext j
          rw [hre j]
          push_cast
          simp only [Complex.ofReal_re]
      intro j
      rw [ht]
      exact h j
  · rintro ⟨w, hw, h⟩
    refine det_zero_of (f := fun _ j => w j) ?_ ?_
    · obtain ⟨j, hj⟩ := Function.ne_iff.1 hw
      exact Function.ne_iff.2 ⟨⟨0, by omega⟩, Function.ne_iff.2 ⟨j, hj⟩⟩
    · rw [guide_kernel_x s hv hd hx hy e he he0, facY_none s hPy, facY_none s hPy]
      intro i j
      rw [ringLap_const, zero_add]
      exact h j

theorem turned_det (s : Sim Nx Ny) (hv : s.Valid) : (toTurn s).A.det = s.A.det := by
  rw [((toTurn_turned s).system hv (toTurn_valid s hv)).2, relMat_det]

/-- **C97, straight guides along `y`.** -/
theorem C97_guide_y (s : Sim Nx Ny) (hv : s.Valid) (hd : 0 < s.dl) (hx : 1 < Nx) (hy : 1 < Ny) (hPx : s.NPML.1 = 0) (hPy : 1 ≤ s.NPML.2) (e : Fin Nx → ℂ) (he : ∀ i j, s.eps_r i j = e i)
    (hp : Spec.GuideMaterial s.pol e) :
    s.A.det = 0 ↔ Spec.Cutoff s.pol s.omega (MU_0 * s.L0) s.dl (fun i => ((EPSILON_0 * s.L0 : ℝ) : ℂ) * e i) := by
  rw [← turned_det s hv]
  exact C97_guide_x (toTurn s) (toTurn_valid s hv) hd hy hx hPy hPx e (fun i j => he j i) hp

/-- **C97, layers on one axis.** In a uniform passive medium with layers along `x` only, the system is singular exactly if a plane wave along `y` satisfies the dispersion relation of the grid: the only
resonances left are waves that never meet the layers. -/
theorem C97_waves (s : Sim Nx Ny) (hv : s.Valid) (hd : 0 < s.dl) (hx : 1 < Nx) (hy : 1 < Ny) (hPx : 1 ≤ s.NPML.1) (hPy : s.NPML.2 = 0) (e : ℂ) (he : ∀ i j, s.eps_r i j = e) (he0 : e ≠ 0)
    (hp : e.im ≤ 0) :
    s.A.det = 0 ↔ ∃ r : ℤ, (s.omega : ℂ) ^ 2 * ((MU_0 * s.L0 : ℝ) : ℂ) * (((EPSILON_0 * s.L0 : ℝ) : ℂ) * e) = ((4 / s.dl ^ 2 * Real.sin (Real.pi * r / Ny) ^ 2 : ℝ) : ℂ) := by
  have hd' : (s.dl : ℂ) ^ 2 ≠ 0 := pow_ne_zero 2 (by exact_mod_cast hd.ne')
  have hM : 0 < MU_0 * s.L0 := mul_pos MU_0_pos hv.L0_pos
  have hE : 0 < EPSILON_0 * s.L0 := mul_pos EPSILON_0_pos hv.L0_pos
  have ho := hv.omega_pos
  set k0 : ℂ := (s.omega : ℂ) ^ 2 * ((MU_0 * s.L0 : ℝ) : ℂ) * (((EPSILON_0 * s.L0 : ℝ) : ℂ) * e) with hk0
  have hki : (k0 * (s.dl : ℂ) ^ 2).im ≤ 0 := by
    rw [show k0 * (s.dl : ℂ) ^ 2 = ((s.omega ^ 2 * (MU_0 * s.L0) * (EPSILON_0 * s.L0) * s.dl ^ 2 : ℝ) : ℂ) * e by rw [hk0]; push_cast; ring, Complex.im_ofReal_mul]
    exact mul_nonpos_of_nonneg_of_nonpos (by positivity) hp
  have heq : ∀ r : ℤ, k0 * (s.dl : ℂ) ^ 2 = ((4 * Real.sin (Real.pi * (r : ℝ) / Ny) ^ 2 : ℝ) : ℂ) ↔ k0 = ((4 / s.dl ^ 2 * Real.sin (Real.pi * r / Ny) ^ 2 : ℝ) : ℂ) := by
    intro r
    rw [← eq_div_iff hd']
    push_cast
    rw [div_mul_eq_mul_div]
  constructor
  · intro h0
    obtain ⟨f, hf, h1⟩ := kernel_grid h0
    rw [uniform_kernel s hv hd hx hy e he he0, facY_none s hPy, facY_none s hPy] at h1
    obtain ⟨w, hw, h2⟩ := guide_cutoff (facX s .f) (facX s .b) (facX_absorbing s hv hd (by omega) .f) (facX_absorbing s hv hd (by omega) .b) (by omega) (facX_first s hv hd (by omega) hPx .f)
      (facX_first s hv hd (by omega) hPx .b) (guideOp (fun _ => 1) (fun _ => 1) (fun _ => 1) (fun _ => k0 * (s.dl : ℂ) ^ 2) (fun _ => 1)) (guideOp_passive _ fun _ => hki) f hf
      (fun i j => by
        show ringLap (fun _ => 1) (facX s .f) (facX s .b) (fun i => f i j) i + (1 * ringLap (fun _ => 1) (fun _ => 1) (fun _ => 1) (f i) j + k0 * (s.dl : ℂ) ^ 2 * f i j) = 0
        linear_combination h1 i j)
    obtain ⟨r, hr⟩ := ring_spectrum w hw (k0 * (s.dl : ℂ) ^ 2) fun j => by
      have h4 : 1 * ringLap (fun _ => 1) (fun _ => 1) (fun _ => 1) w j + k0 * (s.dl : ℂ) ^ 2 * w j = 0 := h2 j
      linear_combination h4
    exact ⟨r.val, (heq _).1 hr⟩
  · rintro ⟨r, hr⟩
    refine det_zero_of (f := fun _ j => Spec.wave Ny r j.val) ?_ ?_
    · exact Function.ne_iff.2 ⟨⟨0, by omega⟩, Function.ne_iff.2 ⟨⟨0, by omega⟩, wave_ne _ _ _⟩⟩
    · rw [uniform_kernel s hv hd hx hy e he he0, facY_none s hPy, facY_none s hPy]
      intro i j
      rw [ringLap_const, zero_add, (heq r).2 hr]
      have h2 := wave_second r j
      simp only [ringLap]
      push_cast at h2 ⊢
      linear_combination h2

/-- **C97, layers on one axis**, along `y`. -/
theorem C97_waves_y (s : Sim Nx Ny) (hv : s.Valid) (hd : 0 < s.dl) (hx : 1 < Nx) (hy : 1 < Ny) (hPx : s.NPML.1 = 0) (hPy : 1 ≤ s.NPML.2) (e : ℂ) (he : ∀ i j, s.eps_r i j = e) (he0 : e ≠ 0)
    (hp : e.im ≤ 0) :
    s.A.det = 0 ↔ ∃ p : ℤ, (s.omega : ℂ) ^ 2 * ((MU_0 * s.L0 : ℝ) : ℂ) * (((EPSILON_0 * s.L0 : ℝ) : ℂ) * e) = ((4 / s.dl ^ 2 * Real.sin (Real.pi * p / Nx) ^ 2 : ℝ) : ℂ) := by
  rw [← turned_det s hv]
  exact C97_waves (toTurn s) (toTurn_valid s hv) hd hy hx hPy hPx e (fun i j => he j i) he0 hp

/-! ## One row of cells -/

/-- The stencil of a device of one row of cells. -/
theorem row_apply (s : Sim Nx 1) (hv : s.Valid) (hdl : s.dl ≠ 0) (hx : 1 < Nx) (hP : s.NPML.2 = 0) (f : Grid Nx 1 ℂ) :
    s.A *ᵥ flatten f = flatten fun i j => ringLap (fun i => coefX s i j) (facX s .f) (facX s .b) (fun i => f i j) i / (s.dl : ℂ) ^ 2 + (coefY s i j + massOf s i j) * f i j := by
  have hdL := hv.dL_eq (by omega : 0 < Nx) (by omega : 0 < 1)
  have hd : (s.dl : ℂ) ≠ 0 := by exact_mod_cast hdl
  obtain ⟨hb, hf⟩ := mkDerivs_y_one (Nx := Nx) s.omega s.L0 s.NPML hP s.xrange s.yrange
  cases hp : s.pol
  · rw [hv.A_eq, hp]
    simp only [construct_A, hb, hf, Matrix.add_mulVec, smul_mulVec, ← Matrix.mulVec_mulVec, Matrix.one_mulVec,
      mkDerivs_Dxb _ _ _ _ _ hx, mkDerivs_Dxf _ _ _ _ _ hx, spdiag_mulVec, hdL]
    refine flat_ext fun i j => ?_
    simp only [Pi.add_apply, Pi.smul_apply, flatten_pair, Spec.fwdX, Spec.bwdX, prev_next, smul_eq_mul, ringLap, coefX, coefY, massOf, facX, hp]
    generalize ((MU_0 * s.L0 : ℝ) : ℂ) = M
    generalize ((EPSILON_0 * s.L0 : ℝ) : ℂ) = E
    generalize create_sfactor s.xrange s.L0 Dir.f s.omega Nx s.NPML.1 i = a
    ring
  · rw [hv.A_eq, hp]
    simp only [construct_A, hb, hf, Matrix.add_mulVec, smul_mulVec, ← Matrix.mulVec_mulVec, Matrix.one_mulVec, if_true, mkDerivs_Dxb _ _ _ _ _ hx, spdiag_mulVec, inv_mul_flatten]
    simp only [mkDerivs_Dxf _ _ _ _ _ hx, hdL, grid_average_smul]
    refine flat_ext fun i j => ?_
    simp only [Pi.add_apply, Pi.smul_apply, flatten_pair, Spec.fwdX, Spec.bwdX, prev_next, smul_eq_mul, ringLap, coefX, coefY, massOf, facX, hp]
    generalize ((MU_0 * s.L0 : ℝ) : ℂ) = M
    generalize ((EPSILON_0 * s.L0 : ℝ) : ℂ) = E
    generalize create_sfactor s.xrange s.L0 Dir.f s.omega Nx s.NPML.1 i = a
    ring

/-- **C97, one row of cells.** With layers at its ends, a row of cells of any lossless material of positive permittivity (for Ez, any passive material of nonnegative real permittivity) is never in
resonance, however the material varies along the row. -/
theorem C97_row (s : Sim Nx 1) (hv : s.Valid) (hd : 0 < s.dl) (hx : 1 < Nx) (hPx : 1 ≤ s.NPML.1) (hPy : s.NPML.2 = 0)
    (hp : match s.pol with | .Ez => ∀ i j, 0 ≤ (s.eps_r i j).re ∧ (s.eps_r i j).im ≤ 0 | .Hz => ∀ i j, 0 < (s.eps_r i j).re ∧ (s.eps_r i j).im = 0) : s.A.det ≠ 0 ∧ Spec.OneField s := by
  have hM : 0 < MU_0 * s.L0 := mul_pos MU_0_pos hv.L0_pos
  have hE : 0 < EPSILON_0 * s.L0 := mul_pos EPSILON_0_pos hv.L0_pos
  have ho := hv.omega_pos
  have hd' : (s.dl : ℂ) ^ 2 ≠ 0 := pow_ne_zero 2 (by exact_mod_cast hd.ne')
  have hdet : s.A.det ≠ 0 := by
    intro h0
    obtain ⟨f, hf, h1⟩ := kernel_grid h0
    rw [row_apply s hv hd.ne' hx hPy, flatten_eq_zero] at h1
    have h2 : ∀ i, ringLap (fun i => coefX s i 0) (facX s .f) (facX s .b) (fun i => f i 0) i = -((coefY s i 0 + massOf s i 0) * (s.dl : ℂ) ^ 2 * f i 0) := by
      intro i
      have h3 : ringLap (fun i => coefX s i 0) (facX s .f) (facX s .b) (fun i => f i 0) i / (s.dl : ℂ) ^ 2 + (coefY s i 0 + massOf s i 0) * f i 0 = 0 := congrFun (congrFun h1 i) 0
      have h4 := eq_neg_of_add_eq_zero_left h3
      rw [div_eq_iff hd'] at h4
      rw [h4]
      ring
    have hc : ∃ c : Fin Nx → ℝ, (∀ i, 0 < c i) ∧ ∀ i, coefX s i 0 = (c i : ℂ) := by
      cases hpol : s.pol <;> rw [hpol] at hp
      · exact ⟨fun _ => 1 / (MU_0 * s.L0), fun _ => one_div_pos.2 hM, fun i => by simp only [coefX, hpol]; push_cast; rfl⟩
      · refine ⟨fun i => 1 / (EPSILON_0 * s.L0 * (((s.eps_r (rollBack i) 0).re + (s.eps_r i 0).re) / 2)),
          fun i => one_div_pos.2 (mul_pos hE (by have := (hp (rollBack i) 0).1; have := (hp i 0).1; linarith)), fun i => ?_⟩
        have hre : ∀ i, s.eps_r i 0 = ((s.eps_r i 0).re : ℂ) := fun i => Complex.ext rfl (by rw [Complex.ofReal_im]; exact (hp i 0).2)
        simp only [coefX, hpol, grid_average]
        rw [hre (rollBack i), hre i]
        push_cast
        simp only [Complex.ofReal_re]
    have hm : ∀ i, 0 < ((coefY s i 0 + massOf s i 0) * (s.dl : ℂ) ^ 2).re ∧ ((coefY s i 0 + massOf s i 0) * (s.dl : ℂ) ^ 2).im ≤ 0 := by
      intro i
      rw [← Complex.ofReal_pow, Complex.re_mul_ofReal, Complex.im_mul_ofReal]
      have hd2 : 0 < s.dl ^ 2 := by positivity
      suffices h : 0 < (coefY s i 0 + massOf s i 0).re ∧ (coefY s i 0 + massOf s i 0).im ≤ 0 from
        ⟨mul_pos h.1 hd2, mul_nonpos_of_nonpos_of_nonneg h.2 hd2.le⟩
      rw [Complex.add_re, Complex.add_im]
      cases hpol : s.pol <;> rw [hpol] at hp
      · simp only [coefY, massOf, hpol]
        rw [show (s.omega : ℂ) ^ 2 * (((EPSILON_0 * s.L0 : ℝ) : ℂ) * s.eps_r i 0) = ((s.omega ^ 2 * (EPSILON_0 * s.L0) : ℝ) : ℂ) * s.eps_r i 0 by push_cast; ring,
          show 1 / ((MU_0 * s.L0 : ℝ) : ℂ) = ((1 / (MU_0 * s.L0) : ℝ) : ℂ) by push_cast; rfl, Complex.re_ofReal_mul, Complex.im_ofReal_mul, Complex.ofReal_re, Complex.ofReal_im, zero_add]
        have hw : 0 < s.omega ^ 2 * (EPSILON_0 * s.L0) := by positivity
        exact ⟨add_pos_of_pos_of_nonneg (one_div_pos.2 hM) (mul_nonneg hw.le (hp i 0).1), mul_nonpos_of_nonneg_of_nonpos hw.le (hp i 0).2⟩
      · have hre : ∀ i, s.eps_r i 0 = ((s.eps_r i 0).re : ℂ) := fun i => Complex.ext rfl (by rw [Complex.ofReal_im]; exact (hp i 0).2)
        have hroll : rollBack (0 : Fin 1) = 0 := Subsingleton.elim _ _
        simp only [coefY, massOf, hpol, grid_average, hroll]
        rw [show 1 / (((EPSILON_0 * s.L0 : ℝ) : ℂ) * ((s.eps_r i 0 + s.eps_r i 0) / 2)) = ((1 / (EPSILON_0 * s.L0 * (s.eps_r i 0).re) : ℝ) : ℂ) by
            rw [show (s.eps_r i 0 + s.eps_r i 0) / 2 = s.eps_r i 0 by ring]; conv_lhs => rw [hre i]
            push_cast; rfl,
          show (s.omega : ℂ) ^ 2 * ((MU_0 * s.L0 : ℝ) : ℂ) = ((s.omega ^ 2 * (MU_0 * s.L0) : ℝ) : ℂ) by push_cast; ring, Complex.ofReal_re, Complex.ofReal_re, Complex.ofReal_im, Complex.ofReal_im, add_zero]
        exact ⟨add_pos (one_div_pos.2 (mul_pos hE (hp i 0).1)) (by positivity), le_refl _⟩
    obtain ⟨c, hc0, hc⟩ := hc
    simp only [hc] at h2
    have h5 := ring_passive c (facX s .f) (facX s .b) (fun i => (coefY s i 0 + massOf s i 0) * (s.dl : ℂ) ^ 2) (fun i => f i 0) (facX_absorbing s hv hd (by omega) .f) (facX_absorbing s hv hd (by omega) .b)
      hc0 (fun i => ⟨(hm i).1.le, (hm i).2⟩) h2 (by omega) (facX_first s hv hd (by omega) hPx .f) (facX_first s hv hd (by omega) hPx .b) (hm _).1
    refine hf (funext fun i => funext fun j => ?_)
    rw [Subsingleton.elim j 0]
    exact congrFun h5 i
  exact ⟨hdet, one_field s hdet⟩

/-! ## The hypotheses are met -/

/-- A device of any size, frequency, resolution, polarisation and material. -/
noncomputable def anysim (omega dl : ℝ) (NPML : ℕ × ℕ) (pol : Pol) (eps src : Grid Nx Ny ℂ) : Sim Nx Ny :=
  let r := construct_A omega (0, Nx * dl) (0, Ny * dl) eps NPML pol 1
  { L0 := 1, omega := omega, dl := dl, NPML := NPML, pol := pol, xrange := (0, Nx * dl), yrange := (0, Ny * dl), src := src, eps_r := eps, A := r.1, derivs := r.2, fields := fun _ => none,
    fields_nl := fun _ => none, nonlinearity := [], eps_nl := fun _ _ => 0, dnl_de := fun _ _ => 0, dnl_deps := fun _ _ => 0, Anl := none, rho := none }

theorem anysim_valid (omega dl : ℝ) (ho : 0 < omega) (NPML : ℕ × ℕ) (pol : Pol) (eps src : Grid Nx Ny ℂ) : (anysim omega dl NPML pol eps src).Valid :=
  ⟨one_pos, ho, rfl, rfl, rfl, construct_A_derivs _ _ _ _ _ _ _ _⟩

/-- Vacuum with layers of ten cells on a fine grid, at any frequency and for both polarisations. -/
example (omega : ℝ) (ho : 0 < omega) (pol : Pol) (src : Grid 100 80 ℂ) : Spec.OneField (anysim omega (1 / 20) (10, 10) pol (fun _ _ => 1) src) :=
  (C97_uniform _ (anysim_valid _ _ ho _ _ _ _) (by norm_num [anysim]) (by norm_num) (by norm_num) (by norm_num [anysim]) (by norm_num [anysim]) 1 (fun _ _ => rfl) one_ne_zero (by simp)).2

/-- A frequency with `ω² μ₀ ε₀ = k`. -/
theorem freq_exists (k : ℝ) (hk : 0 < k) : ∃ omega : ℝ, 0 < omega ∧ omega ^ 2 * MU_0 * EPSILON_0 = k := by
  have h : 0 < MU_0 * EPSILON_0 := mul_pos MU_0_pos EPSILON_0_pos
  refine ⟨Real.sqrt (k / (MU_0 * EPSILON_0)), Real.sqrt_pos.2 (div_pos hk h), ?_⟩
  rw [Real.sq_sqrt (div_pos hk h).le, mul_assoc, div_mul_cancel₀ _ h.ne']

/-- With layers along `x` only, a wave across two rows of cells can still be in resonance, and is not at half the squared frequency. -/
example : ∃ omega omega' : ℝ, 0 < omega ∧ 0 < omega' ∧ (anysim omega 1 (3, 0) .Hz (fun _ _ => 1) (0 : Grid 9 2 ℂ)).A.det = 0 ∧
    (anysim omega' 1 (3, 0) .Hz (fun _ _ => 1) (0 : Grid 9 2 ℂ)).A.det ≠ 0 := by
  obtain ⟨o, ho, h⟩ := freq_exists 4 (by norm_num)
  obtain ⟨o', ho', h'⟩ := freq_exists 2 (by norm_num)
  have key : ∀ o : ℝ, 0 < o → ((anysim o 1 (3, 0) .Hz (fun _ _ => 1) (0 : Grid 9 2 ℂ)).A.det = 0 ↔ ∃ r : ℤ, o ^ 2 * MU_0 * EPSILON_0 = 4 * Real.sin (Real.pi * r / 2) ^ 2) := by
    intro o ho
    rw [C97_waves _ (anysim_valid _ _ ho _ _ _ _) (by norm_num [anysim]) (by norm_num) (by norm_num) (by norm_num [anysim]) rfl 1 (fun _ _ => rfl) one_ne_zero (by simp)]
    refine exists_congr fun r => ?_
    rw [← Complex.ofReal_inj]
    simp only [anysim]
    push_cast
    constructor <;> intro h <;> linear_combination h
  refine ⟨o, o', ho, ho', (key o ho).2 ⟨1, ?_⟩, fun h0 => ?_⟩
  · rw [h, Int.cast_one, mul_one, Real.sin_pi_div_two]
    norm_num
  · obtain ⟨r, hr⟩ := (key o' ho').1 h0
    rw [h'] at hr
    rcases Int.even_or_odd r with ⟨m, hm⟩ | ⟨m, hm⟩
    · rw [show Real.pi * (r : ℝ) / 2 = m * Real.pi by rw [hm]; push_cast; ring, Real.sin_int_mul_pi] at hr
      norm_num at hr
    · rw [Real.sin_sq, show Real.pi * (r : ℝ) / 2 = m * Real.pi + Real.pi / 2 by rw [hm]; push_cast; ring, Real.cos_add_pi_div_two, Real.sin_int_mul_pi] at hr
      norm_num at hr

/-- A guide whose two rows have permittivities 1 and 12, with layers at its ends: singular at its cut-off frequency. -/
example : ∃ omega : ℝ, 0 < omega ∧ (anysim omega 1 (3, 0) .Ez (fun _ j => if j = 0 then 1 else 12) (0 : Grid 9 2 ℂ)).A.det = 0 := by
  obtain ⟨o, ho, h⟩ := freq_exists (13 / 6) (by norm_num)
  refine ⟨o, ho, (C97_guide_x _ (anysim_valid _ _ ho _ _ _ _) (by norm_num [anysim]) (by norm_num) (by norm_num) (by norm_num [anysim]) rfl (fun j => if j = 0 then 1 else 12) (fun _ _ => rfl) ?_).2 ?_⟩
  · intro j
    fin_cases j
    · norm_num
    · norm_num
  · have hc : (o : ℂ) ^ 2 * (MU_0 : ℂ) * (EPSILON_0 : ℂ) = 13 / 6 := by
      have := congrArg (fun x : ℝ => (x : ℂ)) h
      push_cast at this
      exact this
    refine ⟨fun j => if j = 0 then 2 else -1 / 6, Function.ne_iff.2 ⟨0, by norm_num⟩, fun j => ?_⟩
    obtain ⟨hn, hp⟩ := next2 j
    simp only [anysim, hn, hp]
    push_cast
    fin_cases j
    · norm_num
      linear_combination 2 * hc
    · norm_num
      linear_combination -2 * hc

/-- A row of ten cells with any profile, at any frequency. -/
example (omega : ℝ) (ho : 0 < omega) (pol : Pol) (g : Fin 10 → ℝ) (src : Grid 10 1 ℂ) : Spec.OneField (anysim omega (1 / 20) (2, 0) pol (fun i _ => ((1 + g i ^ 2 : ℝ) : ℂ)) src) := by
  refine (C97_row _ (anysim_valid _ _ ho _ _ _ _) (by norm_num [anysim]) (by norm_num) (by norm_num [anysim]) rfl ?_).2
  have h : ∀ i, 0 < 1 + g i ^ 2 := fun i => by positivity
  cases pol
  · exact fun i j => ⟨by simp only [anysim, Complex.ofReal_re]; exact (h i).le, by simp only [anysim, Complex.ofReal_im]; exact le_refl _⟩
  · exact fun i j => ⟨by simp only [anysim, Complex.ofReal_re]; exact h i, by simp only [anysim, Complex.ofReal_im]⟩

end Angler
