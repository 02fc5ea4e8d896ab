import Mathlib.Analysis.Calculus.InverseFunctionTheorem.FDeriv
import Mathlib.Analysis.Calculus.ContDiff.RCLike
import Mathlib.Analysis.Calculus.FDeriv.Prod
import Mathlib.Analysis.Calculus.Deriv.Prod
import Mathlib.Analysis.Calculus.Deriv.Comp
import Mathlib.Topology.Algebra.Module.FiniteDimension
import Mathlib.Analysis.Normed.Module.FiniteDimension

/-! # Branches of solutions of a nonlinear equation with a parameter -/

namespace Angler

open Filter Topology

variable {V : Type*} [NormedAddCommGroup V] [NormedSpace ℝ V] [FiniteDimensional ℝ V]

/-- The implicit function theorem for an equation `G(t, v) = 0` whose linearisation in `v` is injective: a continuous branch of solutions exists, and every continuous
branch is differentiable. -/
theorem implicit_branch (G : ℝ × V → V) (v0 : V) (hG : ContDiff ℝ 1 G) (h0 : G (0, v0) = 0) (hinj : ∀ h, fderiv ℝ G (0, v0) (0, h) = 0 → h = 0) :
    (∃ E : ℝ → V, E 0 = v0 ∧ ContinuousAt E 0 ∧ ∀ᶠ t in 𝓝 (0 : ℝ), G (t, E t) = 0) ∧
    (∀ E : ℝ → V, E 0 = v0 → ContinuousAt E 0 → (∀ᶠ t in 𝓝 (0 : ℝ), G (t, E t) = 0) → ∃ E', HasDerivAt E E' 0 ∧ fderiv ℝ G (0, v0) (1, E') = 0) := by
  have hs : HasStrictFDerivAt G (fderiv ℝ G (0, v0)) (0, v0) := hG.contDiffAt.hasStrictFDerivAt (by norm_num)
  let P : ℝ × V → ℝ × V := fun x => (x.1, G x)
  let P' : ℝ × V →L[ℝ] ℝ × V := (ContinuousLinearMap.fst ℝ ℝ V).prod (fderiv ℝ G (0, v0))
  have hP : HasStrictFDerivAt P P' (0, v0) := hasStrictFDerivAt_fst.prodMk hs
  have hPinj : Function.Injective P' := by
    refine (injective_iff_map_eq_zero P').2 ?_
    rintro ⟨t, h⟩ hx
    have h1 : t = 0 := congrArg Prod.fst hx
    have h2 : fderiv ℝ G (0, v0) (t, h) = 0 := congrArg Prod.snd hx
    subst h1
    rw [hinj h h2]
    rfl
  let e : (ℝ × V) ≃L[ℝ] (ℝ × V) := (LinearEquiv.ofInjectiveEndo (P' : ℝ × V →ₗ[ℝ] ℝ × V) hPinj).toContinuousLinearEquiv
  have he : (e : ℝ × V →L[ℝ] ℝ × V) = P' := by
    ext x <;> rfl
  have hPe : HasStrictFDerivAt P (e : ℝ × V →L[ℝ] ℝ × V) (0, v0) := by rw [he]; exact hP
  have hP0 : P (0, v0) = (0, 0) := by simp only [P, h0]
  haveI : CompleteSpace (ℝ × V) := FiniteDimensional.complete ℝ _
  let Q := hPe.localInverse P e (0, v0)
  have hQ0 : Q (0, 0) = (0, v0) := by
    have := hPe.localInverse_apply_image
    rwa [hP0] at this
  have hQd : HasFDerivAt Q (e.symm : ℝ × V →L[ℝ] ℝ × V) (0, 0) := by
    have := hPe.to_localInverse.hasFDerivAt
    rwa [hP0] at this
  have hline : HasDerivAt (fun t : ℝ => ((t, (0 : V)) : ℝ × V)) (1, 0) 0 := (hasDerivAt_id (0 : ℝ)).prodMk (hasDerivAt_const _ _)
  have hQt : HasDerivAt (fun t : ℝ => Q (t, 0)) (e.symm (1, 0)) 0 := HasFDerivAt.comp_hasDerivAt (f := fun t : ℝ => ((t, (0 : V)) : ℝ × V)) (0 : ℝ) hQd hline
  have hright : ∀ᶠ t in 𝓝 (0 : ℝ), P (Q (t, 0)) = (t, 0) := by
    have h := hPe.eventually_right_inverse
    rw [hP0] at h
    exact hline.continuousAt.eventually h
  have hQ2 : HasDerivAt (fun t : ℝ => (Q (t, 0)).2) (e.symm (1, 0)).2 0 :=
    HasFDerivAt.comp_hasDerivAt (f := fun t : ℝ => Q (t, 0)) (0 : ℝ) hasFDerivAt_snd hQt
  refine ⟨⟨fun t => (Q (t, 0)).2, by simp only [hQ0], hQ2.continuousAt, ?_⟩, ?_⟩
  · filter_upwards [hright] with t ht
    have h1 : (Q (t, 0)).1 = t := congrArg Prod.fst ht
    have h2 : G (Q (t, 0)) = 0 := congrArg Prod.snd ht
    rwa [show Q (t, 0) = (t, (Q (t, 0)).2) from Prod.ext h1 rfl] at h2
  · intro E hE0 hEc hE
    have hc : Tendsto (fun t : ℝ => ((t, E t) : ℝ × V)) (𝓝 0) (𝓝 (0, v0)) := by
      have := (continuousAt_id (x := (0 : ℝ))).prodMk hEc
      have h2 : Tendsto (fun t : ℝ => ((t, E t) : ℝ × V)) (𝓝 0) (𝓝 ((0 : ℝ), E 0)) := this
      rwa [hE0] at h2
    have hl : ∀ᶠ t in 𝓝 (0 : ℝ), E t = (Q (t, 0)).2 := by
      filter_upwards [hc.eventually hPe.eventually_left_inverse, hE] with t h1 h2
      have h3 : P (t, E t) = (t, 0) := Prod.ext rfl h2
      rw [h3] at h1
      exact (congrArg Prod.snd h1).symm
    refine ⟨(e.symm (1, 0)).2, hQ2.congr_of_eventuallyEq hl, ?_⟩
    have h1 : e (e.symm (1, 0)) = (1, 0) := e.apply_symm_apply _
    have h2 : P' (e.symm (1, 0)) = (1, 0) := by rw [← he]; exact h1
    have h3 : (e.symm (1, 0)).1 = 1 := congrArg Prod.fst h2
    have h4 : fderiv ℝ G (0, v0) (e.symm (1, 0)) = 0 := congrArg Prod.snd h2
    rwa [show e.symm (1, 0) = (1, (e.symm (1, 0)).2) from Prod.ext h3 rfl] at h4

end Angler
