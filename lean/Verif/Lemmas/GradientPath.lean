import Verif.Lemmas.GradientEz

/-! # The adjoint gradient along arbitrary paths of densities (linear Ez polarisation) -/

namespace Angler

open Matrix Filter Topology

variable {Nx Ny : ℕ}

theorem sum_rot3 {α β γ : Type} [Fintype α] [Fintype β] [Fintype γ] (F : α → β → γ → ℝ) : ∑ i, ∑ j, ∑ k, F i j k = ∑ k, ∑ i, ∑ j, F i j k := by
  have : ∀ i, ∑ j, ∑ k, F i j k = ∑ k, ∑ j, F i j k := fun i => Finset.sum_comm
  simp only [this]
  exact Finset.sum_comm

theorem sum_swap4 {α β : Type} [Fintype α] [Fintype β] (F : α → β → α → β → ℝ) : ∑ i, ∑ j, ∑ p, ∑ q, F i j p q = ∑ p, ∑ q, ∑ i, ∑ j, F i j p q := by
  have h : ∀ p, ∑ i, ∑ j, ∑ q, F i j p q = ∑ q, ∑ i, ∑ j, F i j p q := fun p => sum_rot3 _
  simp only [← h]
  exact sum_rot3 _

/-- The adjoint gradient is the derivative along every path of densities that moves only pixels where the filter is symmetric. -/
theorem gradient_path_Ez (env : Env) (he : env.Exact) (o : Opt Nx Ny) (J : ObjFn Nx Ny) (args : List ObjArg) (rho : Grid Nx Ny ℝ)
    (hS : Spec.LinearEz env o J args rho) (hargs : ∀ a ∈ args, a.nl = false ∧ a.component.isEz ∧ a.gradient = gradientMap a.component a.nl)
    (hlen : args.length = J.arity) :
    ∃ g : Grid Nx Ny ℝ, (Opt.compute_dJ env o).1 = .ok g ∧
      ∀ (r : ℝ → Grid Nx Ny ℝ) (r' : Grid Nx Ny ℝ), r 0 = rho → (∀ i j, HasDerivAt (fun t => r t i j) (r' i j) 0) →
        (∀ i j, r' i j ≠ 0 → Spec.FilterSym o.W o.design_region i j) →
        HasDerivAt (fun t => linObj env o J args hlen (r t)) (∑ i, ∑ j, g i j * r' i j) 0 := by
  obtain ⟨-, hg⟩ := dJ_Ez_formula env o J args rho hS hargs hlen
  refine ⟨_, hg, fun r r' hr0 hr hsym => ?_⟩
  refine (hasDerivAt_linObj env he o J args rho hS hargs hlen hr0 hr).congr_deriv ?_
  have hW : ∀ i j p q, o.W (finProdFinEquiv (i, j)) (finProdFinEquiv (p, q)) * r' p q = o.W (finProdFinEquiv (p, q)) (finProdFinEquiv (i, j)) * o.design_region i j * r' p q := by
    intro i j p q
    by_cases h : r' p q = 0
    · rw [h, mul_zero, mul_zero]
    · rcases hsym p q h i j with ⟨h1, h2⟩ | ⟨h1, h2⟩
      · rw [h2, h1, mul_one]
      · rw [h2, h1, mul_zero]
  have hre : ∀ (z : ℂ) (x : ℝ), (z * (x : ℂ)).re = z.re * x := fun z x => by rw [Complex.mul_re, Complex.ofReal_re, Complex.ofReal_im, mul_zero, sub_zero]
  have hfac : ∀ (a c E : ℂ) (m x : ℝ), (a * (c * (((m * x : ℝ) : ℂ) * E))).re = (a * (c * ((m : ℂ) * E))).re * x := by
    intro a c E m x
    rw [← hre]
    congr 1
    push_cast
    ring
  simp only [tail_Ez_apply, rho2rhot_apply r', hW, Complex.re_sum, hfac]
  simp only [Finset.sum_mul, Finset.mul_sum]
  refine Eq.trans ?_ (sum_rot3 _).symm
  refine Finset.sum_congr rfl fun k _ => ?_
  refine Eq.trans (sum_swap4 _) ?_
  refine Finset.sum_congr rfl fun p _ => Finset.sum_congr rfl fun q _ => Finset.sum_congr rfl fun i _ => Finset.sum_congr rfl fun j _ => ?_
  ring

end Angler
