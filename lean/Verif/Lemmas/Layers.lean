import Verif.Lemmas.Ring
import Mathlib.LinearAlgebra.Eigenspace.Triangularizable
import Mathlib.Analysis.Complex.Polynomial.Basic

/-! # Uniform media with absorbing layers: common eigenvectors -/

namespace Angler

open Matrix

variable {Nx Ny n : ℕ}

theorem common_eigen {V : Type*} [AddCommGroup V] [Module ℂ V] [FiniteDimensional ℂ V] (X Y : Module.End ℂ V) (hc : ∀ v, X (Y v) = Y (X v)) (κ : ℂ) (v : V) (hv : v ≠ 0)
    (h : X v + Y v = κ • v) : ∃ (l : ℂ) (w : V), w ≠ 0 ∧ X w = l • w ∧ Y w = (κ - l) • w := by
  let K : Submodule ℂ V := LinearMap.ker (X + Y - κ • LinearMap.id)
  have mem : ∀ w, w ∈ K ↔ X w + Y w = κ • w := by
    intro w
    rw [LinearMap.mem_ker]
    simp only [LinearMap.sub_apply, LinearMap.add_apply, LinearMap.smul_apply, LinearMap.id_apply]
    exact sub_eq_zero
  have hmap : ∀ w ∈ K, X w ∈ K := by
    intro w hw
    rw [mem] at hw ⊢
    rw [← hc, ← map_add, hw, map_smul]
  have : Nontrivial K := ⟨⟨⟨v, (mem v).2 h⟩, 0, fun h0 => hv (congrArg Subtype.val h0)⟩⟩
  obtain ⟨l, hl⟩ := Module.End.exists_eigenvalue (X.restrict hmap)
  obtain ⟨w, hw⟩ := hl.exists_hasEigenvector
  have h1 : X w.1 = l • w.1 := congrArg Subtype.val hw.apply_eq_smul
  refine ⟨l, w.1, fun h0 => hw.2 (Subtype.ext h0), h1, ?_⟩
  have h2 := (mem w.1).1 w.2
  rw [h1] at h2
  rw [sub_smul, ← h2, add_sub_cancel_left]

/-- Second differences along `x` (negated) of a field on the grid. -/
noncomputable def lapX (sf sb : Fin Nx → ℂ) : Module.End ℂ (Grid Nx Ny ℂ) where
  toFun f := fun i j => -ringLap (fun _ => 1) sf sb (fun i => f i j) i
  map_add' f g := by
    funext i j
    simp only [ringLap, Pi.add_apply]
    ring
  map_smul' c f := by
    funext i j
    simp only [ringLap, Pi.smul_apply, smul_eq_mul, RingHom.id_apply]
    ring

/-- An operator along `y`, applied to each row. -/
def rowwise (T : Module.End ℂ (Fin Ny → ℂ)) : Module.End ℂ (Grid Nx Ny ℂ) where
  toFun f := fun i => T (f i)
  map_add' f g := by
    funext i
    exact map_add T _ _
  map_smul' c f := by
    funext i
    exact map_smul T _ _

theorem lap_comm (ax bx : Fin Nx → ℂ) (T : Module.End ℂ (Fin Ny → ℂ)) (f : Grid Nx Ny ℂ) : lapX ax bx (rowwise T f) = rowwise T (lapX ax bx f) := by
  have h : ∀ g : Grid Nx Ny ℂ, ∀ i, lapX ax bx g i =
      (-(1 / ax i)) • ((1 / bx (Spec.next i)) • (g (Spec.next i) - g i) - (1 / bx i) • (g i - g (Spec.prev i))) := by
    intro g i
    funext j
    simp only [lapX, LinearMap.coe_mk, AddHom.coe_mk, ringLap, Pi.smul_apply, Pi.sub_apply, smul_eq_mul]
    ring
  funext i
  have h2 : rowwise T (lapX ax bx f) i = T (lapX ax bx f i) := rfl
  rw [h, h2, h, map_smul, map_sub, map_smul, map_smul, map_sub, map_sub]
  rfl

/-- A field that needs no source splits off an eigenvector along each axis. -/
theorem split_axes (ax bx : Fin Nx → ℂ) (T : Module.End ℂ (Fin Ny → ℂ)) (f : Grid Nx Ny ℂ) (hf : f ≠ 0)
    (h : ∀ i j, ringLap (fun _ => 1) ax bx (fun i => f i j) i + T (f i) j = 0) :
    ∃ (l : ℂ) (u : Fin Nx → ℂ) (w : Fin Ny → ℂ), u ≠ 0 ∧ w ≠ 0 ∧ (∀ i, ringLap (fun _ => 1) ax bx u i = -(l * u i)) ∧ ∀ j, T w j = l * w j := by
  have h0 : lapX ax bx f + rowwise (-T) f = (0 : ℂ) • f := by
    funext i j
    rw [zero_smul]
    show -ringLap _ ax bx (fun i => f i j) i + -T (f i) j = 0
    linear_combination -(h i j)
  obtain ⟨l, w, hw, h1, h2⟩ := common_eigen _ _ (lap_comm ax bx (-T)) 0 f hf h0
  obtain ⟨i0, hi⟩ := Function.ne_iff.1 hw
  obtain ⟨j0, hij⟩ := Function.ne_iff.1 hi
  refine ⟨l, fun i => w i j0, w i0, Function.ne_iff.2 ⟨i0, hij⟩, hi, fun i => ?_, fun j => ?_⟩
  · have h3 : -ringLap (fun _ => 1) ax bx (fun i => w i j0) i = l * w i j0 := congrFun (congrFun h1 i) j0
    linear_combination -h3
  · have h3 : -T (w i0) j = (0 - l) * w i0 j := congrFun (congrFun h2 i0) j
    linear_combination -h3

/-- Second differences along `y` with a potential, as an operator. -/
noncomputable def guideOp (c sf sb k : Fin n → ℂ) (m : Fin n → ℂ) : Module.End ℂ (Fin n → ℂ) where
  toFun w := fun j => m j * ringLap c sf sb w j + k j * w j
  map_add' f g := by
    funext j
    simp only [ringLap, Pi.add_apply]
    ring
  map_smul' a f := by
    funext j
    simp only [ringLap, Pi.smul_apply, smul_eq_mul, RingHom.id_apply]
    ring

/-- The eigenvalues of the plain second difference. -/
theorem ring_spectrum (w : Fin n → ℂ) (hw : w ≠ 0) (κ : ℂ) (h : ∀ j, ringLap (fun _ => 1) (fun _ => 1) (fun _ => 1) w j = -(κ * w j)) :
    ∃ r : Fin n, κ = ((4 * Real.sin (Real.pi * ((r.val : ℤ) : ℝ) / n) ^ 2 : ℝ) : ℂ) := by
  have hn : (n : ℂ) ≠ 0 := by
    obtain ⟨i, -⟩ := Function.ne_iff.1 hw
    have := i.2
    exact_mod_cast (by omega : n ≠ 0)
  let F : Mat n ℂ := fun k l => Spec.wave n (l.val : ℤ) k.val
  have hF : Fᴴ * F = (n : ℂ) • (1 : Mat n ℂ) := by
    ext a b
    rw [Matrix.mul_apply, Matrix.smul_apply, Matrix.one_apply]
    have := wave_sum n a b
    rw [smul_eq_mul, mul_ite, mul_one, mul_zero, ← this]
    rfl
  have hdet : (Fᴴ).det ≠ 0 := by
    intro h0
    have h1 := congrArg Matrix.det hF
    rw [Matrix.det_mul, h0, zero_mul, Matrix.det_smul, Matrix.det_one, mul_one] at h1
    exact pow_ne_zero _ hn h1.symm
  have hex : ∃ r, (Fᴴ *ᵥ w) r ≠ 0 := by
    by_contra hc
    push Not at hc
    exact hw (Matrix.eq_zero_of_mulVec_eq_zero hdet (funext hc))
  obtain ⟨r, hr⟩ := hex
  refine ⟨r, ?_⟩
  have hr' : (Fᴴ *ᵥ w) r = ∑ j, (starRingEnd ℂ) (Spec.wave n (r.val : ℤ) j.val) * w j := rfl
  rw [hr'] at hr
  have e1 : ∀ j, -(κ * w j) = w (Spec.next j) + w (Spec.prev j) - 2 * w j := by
    intro j
    rw [← h j]
    simp only [ringLap, div_one, one_mul]
    ring
  have s1 : ∑ j, (starRingEnd ℂ) (Spec.wave n (r.val : ℤ) j.val) * w (Spec.next j) = ∑ j, (starRingEnd ℂ) (Spec.wave n (r.val : ℤ) (Spec.prev j).val) * w j := by
    conv_rhs => rw [← Equiv.sum_comp (nextEquiv n)]
    refine Finset.sum_congr rfl fun i _ => ?_
    show _ = (starRingEnd ℂ) (Spec.wave n (r.val : ℤ) (Spec.prev (Spec.next i)).val) * w (Spec.next i)
    rw [prev_next]
  have s2 : ∑ j, (starRingEnd ℂ) (Spec.wave n (r.val : ℤ) j.val) * w (Spec.prev j) = ∑ j, (starRingEnd ℂ) (Spec.wave n (r.val : ℤ) (Spec.next j).val) * w j := by
    conv_lhs => rw [← Equiv.sum_comp (nextEquiv n)]
    refine Finset.sum_congr rfl fun i _ => ?_
    show (starRingEnd ℂ) (Spec.wave n (r.val : ℤ) (Spec.next i).val) * w (Spec.prev (Spec.next i)) = _
    rw [prev_next]
  have key : -κ * ∑ j, (starRingEnd ℂ) (Spec.wave n (r.val : ℤ) j.val) * w j =
      -((4 * Real.sin (Real.pi * ((r.val : ℤ) : ℝ) / n) ^ 2 : ℝ) : ℂ) * ∑ j, (starRingEnd ℂ) (Spec.wave n (r.val : ℤ) j.val) * w j := by
    calc -κ * ∑ j, (starRingEnd ℂ) (Spec.wave n (r.val : ℤ) j.val) * w j
        = ∑ j, (starRingEnd ℂ) (Spec.wave n (r.val : ℤ) j.val) * w (Spec.next j) + ∑ j, (starRingEnd ℂ) (Spec.wave n (r.val : ℤ) j.val) * w (Spec.prev j)
          - 2 * ∑ j, (starRingEnd ℂ) (Spec.wave n (r.val : ℤ) j.val) * w j := by
          rw [Finset.mul_sum, Finset.mul_sum, ← Finset.sum_add_distrib, ← Finset.sum_sub_distrib]
          refine Finset.sum_congr rfl fun j _ => ?_
          linear_combination (starRingEnd ℂ) (Spec.wave n (r.val : ℤ) j.val) * e1 j
      _ = ∑ j, (starRingEnd ℂ) (Spec.wave n (r.val : ℤ) (Spec.next j).val + Spec.wave n (r.val : ℤ) (Spec.prev j).val - 2 * Spec.wave n (r.val : ℤ) j.val) * w j := by
          rw [s1, s2, Finset.mul_sum, ← Finset.sum_add_distrib, ← Finset.sum_sub_distrib]
          refine Finset.sum_congr rfl fun j _ => ?_
          simp only [map_add, map_sub, map_mul, map_ofNat]
          ring
      _ = _ := by
          rw [Finset.mul_sum]
          refine Finset.sum_congr rfl fun j _ => ?_
          rw [wave_second, map_mul, map_neg, map_mul, map_ofNat, map_pow, Complex.conj_ofReal]
          push_cast
          ring
  exact neg_injective (mul_right_cancel₀ hr key)

/-- Uniform media: the homogeneous equation of either polarisation. -/
theorem uniform_kernel (s : Sim Nx Ny) (hv : s.Valid) (hd : 0 < s.dl) (hx : 1 < Nx) (hy : 1 < Ny) (e : ℂ) (he : ∀ i j, s.eps_r i j = e) (he0 : e ≠ 0) (f : Grid Nx Ny ℂ) :
    s.A *ᵥ flatten f = 0 ↔ ∀ i j, ringLap (fun _ => 1) (facX s .f) (facX s .b) (fun i => f i j) i + ringLap (fun _ => 1) (facY s .f) (facY s .b) (f i) j =
      -(((s.omega : ℂ) ^ 2 * ((MU_0 * s.L0 : ℝ) : ℂ) * (((EPSILON_0 * s.L0 : ℝ) : ℂ) * e) * (s.dl : ℂ) ^ 2) * f i j) := by
  have hd' : (s.dl : ℂ) ≠ 0 := by exact_mod_cast hd.ne'
  have hM : ((MU_0 * s.L0 : ℝ) : ℂ) ≠ 0 := by exact_mod_cast (mul_pos MU_0_pos hv.L0_pos).ne'
  have hE : ((EPSILON_0 * s.L0 : ℝ) : ℂ) ≠ 0 := by exact_mod_cast (mul_pos EPSILON_0_pos hv.L0_pos).ne'
  have hav : ∀ w i j, grid_average s.eps_r w i j = e := by
    intro w i j
    cases w <;> simp only [grid_average, he] <;> ring
  let c : ℂ := match s.pol with | .Ez => 1 / ((MU_0 * s.L0 : ℝ) : ℂ) | .Hz => 1 / (((EPSILON_0 * s.L0 : ℝ) : ℂ) * e)
  have hX : ∀ i j, coefX s i j = c := by
    intro i j
    unfold coefX
    simp only [hav]
    rfl
  have hY : ∀ i j, coefY s i j = c := by
    intro i j
    unfold coefY
    simp only [hav]
    rfl
  have hc0 : c ≠ 0 := by
    show (match s.pol with | .Ez => 1 / ((MU_0 * s.L0 : ℝ) : ℂ) | .Hz => 1 / (((EPSILON_0 * s.L0 : ℝ) : ℂ) * e)) ≠ 0
    rcases s.pol
    · exact one_div_ne_zero hM
    · exact one_div_ne_zero (mul_ne_zero hE he0)
  have hm : ∀ i j, massOf s i j = c * ((s.omega : ℂ) ^ 2 * ((MU_0 * s.L0 : ℝ) : ℂ) * (((EPSILON_0 * s.L0 : ℝ) : ℂ) * e)) := by
    intro i j
    show massOf s i j = (match s.pol with | .Ez => 1 / ((MU_0 * s.L0 : ℝ) : ℂ) | .Hz => 1 / (((EPSILON_0 * s.L0 : ℝ) : ℂ) * e)) * _
    unfold massOf
    rw [he]
    generalize ((MU_0 * s.L0 : ℝ) : ℂ) = M at *
    generalize ((EPSILON_0 * s.L0 : ℝ) : ℂ) = E at *
    rcases s.pol
    · field_simp
    · field_simp
  have hlap : ∀ (m : ℕ) (sf sb u : Fin m → ℂ) (i : Fin m), ringLap (fun _ => c) sf sb u i = c * ringLap (fun _ => 1) sf sb u i := by
    intro m sf sb u i
    simp only [ringLap]
    ring
  rw [stencil_apply s hv hd.ne' hx hy, flatten_eq_zero]
  simp only [hX, hY, hlap, hm]
  generalize (s.omega : ℂ) ^ 2 * ((MU_0 * s.L0 : ℝ) : ℂ) * (((EPSILON_0 * s.L0 : ℝ) : ℂ) * e) = k
  constructor
  · intro h i j
    have h1 := congrFun (congrFun h i) j
    change _ = (0 : ℂ) at h1
    have h2 : c * (ringLap (fun _ => 1) (facX s .f) (facX s .b) (fun i => f i j) i + ringLap (fun _ => 1) (facY s .f) (facY s .b) (f i) j + k * (s.dl : ℂ) ^ 2 * f i j) = 0 := by
      have h3 := congrArg (fun z => z * (s.dl : ℂ) ^ 2) h1
      beta_reduce at h3
      rw [zero_mul, add_mul, div_mul_cancel₀ _ (pow_ne_zero 2 hd')] at h3
      linear_combination h3
    exact eq_neg_of_add_eq_zero_left ((mul_eq_zero.1 h2).resolve_left hc0)
  · intro h
    funext i j
    show _ = (0 : ℂ)
    rw [← mul_add, h i j]
    field_simp
    ring

end Angler
