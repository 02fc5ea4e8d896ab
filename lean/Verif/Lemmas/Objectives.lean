import Verif.Lemmas.Gradient
import Mathlib.Analysis.Calculus.FDeriv.Pow
import Mathlib.Analysis.Calculus.FDeriv.Prod
import Mathlib.Analysis.Calculus.FDeriv.Add

/-! # Objective functions used in examples -/

namespace Angler

open Matrix

variable {Nx Ny : ℕ}

/-- One entry of one argument, as a continuous real-linear map. -/
noncomputable def entryCLM (n : ℕ) (k : Fin n) (i : Fin Nx) (j : Fin Ny) : (Fin n → Grid Nx Ny ℂ) →L[ℝ] ℂ :=
  (ContinuousLinearMap.proj (R := ℝ) (φ := fun _ : Fin Ny => ℂ) j).comp
    ((ContinuousLinearMap.proj (R := ℝ) (φ := fun _ : Fin Nx => Fin Ny → ℂ) i).comp (ContinuousLinearMap.proj (R := ℝ) (φ := fun _ : Fin n => Grid Nx Ny ℂ) k))

theorem entryCLM_apply (n : ℕ) (k : Fin n) (i : Fin Nx) (j : Fin Ny) (x : Fin n → Grid Nx Ny ℂ) : entryCLM n k i j x = x k i j := rfl

/-- `J(e) = sum(|e|^2)`: autograd returns `2 conj(e)`. -/
noncomputable def intensityJ (Nx Ny : ℕ) : ObjFn Nx Ny where
  arity := 1
  eval := fun x => ∑ i, ∑ j, ((x 0 i j).re ^ 2 + (x 0 i j).im ^ 2)
  partials := fun _ x i j => 2 * (starRingEnd ℂ) (x 0 i j)

theorem intensityJ_autograd (x : Fin 1 → Grid Nx Ny ℂ) : Spec.Autograd (intensityJ Nx Ny) x := by
  let L : (Fin 1 → Grid Nx Ny ℂ) →L[ℝ] ℝ := ∑ i, ∑ j, ((2 * (x 0 i j).re) • (Complex.reCLM.comp (entryCLM 1 0 i j)) + (2 * (x 0 i j).im) • (Complex.imCLM.comp (entryCLM 1 0 i j)))
  have hL : ∀ y : Fin 1 → Grid Nx Ny ℂ, L y = ∑ i, ∑ j, (2 * (starRingEnd ℂ) (x 0 i j) * y 0 i j).re := by
    intro y
    simp only [L, ContinuousLinearMap.sum_apply, ContinuousLinearMap.add_apply, ContinuousLinearMap.smul_apply, ContinuousLinearMap.comp_apply, entryCLM_apply,
      Complex.reCLM_apply, Complex.imCLM_apply, smul_eq_mul]
    refine Finset.sum_congr rfl fun i _ => Finset.sum_congr rfl fun j _ => ?_
    simp only [Complex.mul_re, Complex.mul_im, Complex.conj_re, Complex.conj_im, Complex.re_ofNat, Complex.im_ofNat]
    ring
  refine ⟨L, ?_, ?_⟩
  · intro δ
    show L δ = ∑ k : Fin 1, _
    rw [Fin.sum_univ_one]
    exact hL δ
  · show HasFDerivAt (fun x : Fin 1 → Grid Nx Ny ℂ => ∑ i, ∑ j, ((x 0 i j).re ^ 2 + (x 0 i j).im ^ 2)) L x
    refine HasFDerivAt.fun_sum fun i _ => HasFDerivAt.fun_sum fun j _ => ?_
    have h1 := ((Complex.reCLM.comp (entryCLM (Nx := Nx) (Ny := Ny) 1 0 i j)).hasFDerivAt (x := x)).pow 2
    have h2 := ((Complex.imCLM.comp (entryCLM (Nx := Nx) (Ny := Ny) 1 0 i j)).hasFDerivAt (x := x)).pow 2
    refine (h1.add h2).congr_fderiv ?_
    ext δ
    simp [entryCLM_apply]

/-- `J(e) = Re(sum(p*e))` for a fixed array `p`. -/
noncomputable def linearJ (p : Grid Nx Ny ℂ) : ObjFn Nx Ny where
  arity := 1
  eval := fun x => ∑ i, ∑ j, (p i j * x 0 i j).re
  partials := fun _ _ => p

theorem linearJ_autograd (p : Grid Nx Ny ℂ) (x : Fin (linearJ p).arity → Grid Nx Ny ℂ) : Spec.Autograd (linearJ p) x := by
  let L : (Fin 1 → Grid Nx Ny ℂ) →L[ℝ] ℝ := ∑ i, ∑ j, ((p i j).re • (Complex.reCLM.comp (entryCLM 1 0 i j)) - (p i j).im • (Complex.imCLM.comp (entryCLM 1 0 i j)))
  have hL : ∀ y : Fin 1 → Grid Nx Ny ℂ, L y = ∑ i, ∑ j, (p i j * y 0 i j).re := by
    intro y
    simp only [L, ContinuousLinearMap.sum_apply, ContinuousLinearMap.sub_apply, ContinuousLinearMap.smul_apply, ContinuousLinearMap.comp_apply, entryCLM_apply,
      Complex.reCLM_apply, Complex.imCLM_apply, smul_eq_mul, Complex.mul_re]
  refine ⟨L, ?_, ?_⟩
  · intro δ
    show L δ = ∑ k : Fin 1, _
    rw [Fin.sum_univ_one]
    exact hL δ
  · have : (linearJ p).eval = fun y => L y := by
      funext y; exact (hL y).symm
    rw [this]
    exact L.hasFDerivAt

end Angler
