import Verif.Lemmas.Kerr
import Verif.Lemmas.Witness
import Mathlib.Analysis.Calculus.Deriv.Mul
import Mathlib.Analysis.Calculus.Deriv.Add
import Mathlib.Analysis.Complex.RealDeriv

/-! # C22, C23: the Kerr nonlinearity and Newton's Jacobian -/

namespace Angler

open Matrix

variable {Nx Ny : ℕ}

/-- **C22.** After `compute_nl(e)`: the permittivity shift is the sum over the nonlinearities of `3 χ region |e|²` (times the density for `eps_scale`); it is
real at pixels where the permittivity is real, zero outside every `nl_region`, non-negative for non-negative `χ`, regions, `eps_max > 1` and `ε ≥ 1`, and unchanged when `e` is multiplied by a phase. -/
theorem C22_kerr_shift (s : Sim Nx Ny) (e : Grid Nx Ny ℂ) (i : Fin Nx) (j : Fin Ny) :
    ((s.compute_nl e).eps_nl i j = (s.nonlinearity.map fun n => 3 * (n.chi : ℂ) * (n.nl_region i j : ℂ) * (‖e i j‖ : ℂ) ^ 2 *
      (match n.scale with | some m => (s.eps_r i j - 1) / (((m : ℝ) : ℂ) - 1) | none => 1)).sum) ∧
    ((s.eps_r i j).im = 0 → ((s.compute_nl e).eps_nl i j).im = 0) ∧
    ((∀ n ∈ s.nonlinearity, n.nl_region i j = 0) → (s.compute_nl e).eps_nl i j = 0) ∧
    ((∀ n ∈ s.nonlinearity, 0 ≤ n.chi ∧ 0 ≤ n.nl_region i j ∧ ∀ m, n.scale = some m → 1 < (m : ℝ)) → (∃ x : ℝ, s.eps_r i j = x ∧ 1 ≤ x) →
      0 ≤ ((s.compute_nl e).eps_nl i j).re) ∧
    (∀ c : ℂ, ‖c‖ = 1 → (s.compute_nl fun i j => c * e i j).eps_nl i j = (s.compute_nl e).eps_nl i j) := by
  -- for real permittivity each coefficient is a real number
  have hreal : ∀ x : ℝ, s.eps_r i j = x → ∀ n : Nonlinearity Nx Ny, Spec.kerrCoef n s.eps_r i j =
      ((3 * n.chi * n.nl_region i j * (match n.scale with | some m => (x - 1) / ((m : ℝ) - 1) | none => 1) : ℝ) : ℂ) := by
    intro x hx n
    unfold Spec.kerrCoef
    cases n.scale with
    | none => simp
    | some m => simp only [hx]; push_cast; ring
  refine ⟨?_, ?_, ?_, ?_, ?_⟩
  · rw [compute_nl_eps_nl, Spec.kerrSum, ← List.sum_map_mul_right]
    congr 1
    refine List.map_congr_left fun n _ => ?_
    unfold Spec.kerrCoef
    cases n.scale <;> (push_cast; ring)
  · intro him
    have hx : s.eps_r i j = ((s.eps_r i j).re : ℂ) := Complex.ext rfl (by simpa using him)
    rw [compute_nl_eps_nl, Spec.kerrSum]
    simp only [hreal _ hx]
    have hl : ∀ l : List (Nonlinearity Nx Ny), ∀ f : Nonlinearity Nx Ny → ℝ, (l.map fun n => ((f n : ℝ) : ℂ)).sum = (((l.map f).sum : ℝ) : ℂ) := by
      intro l f
      induction l with
      | nil => simp
      | cons a l ih => simp [ih]
    rw [hl, ← Complex.ofReal_mul, Complex.ofReal_im]
  · intro h
    rw [compute_nl_eps_nl, Spec.kerrSum, List.sum_eq_zero, zero_mul]
    intro x hx
    obtain ⟨n, hn, rfl⟩ := List.mem_map.1 hx
    unfold Spec.kerrCoef
    rw [h n hn]; simp
  · rintro h ⟨x, hx, hx1⟩
    rw [compute_nl_eps_nl, Spec.kerrSum]
    simp only [hreal _ hx]
    have hl : ∀ l : List (Nonlinearity Nx Ny), (∀ n ∈ l, 0 ≤ n.chi ∧ 0 ≤ n.nl_region i j ∧ ∀ m, n.scale = some m → 1 < (m : ℝ)) →
        0 ≤ (l.map fun n => 3 * n.chi * n.nl_region i j * (match n.scale with | some m => (x - 1) / ((m : ℝ) - 1) | none => 1)).sum := by
      intro l hl
      refine List.sum_nonneg fun y hy => ?_
      obtain ⟨n, hn, rfl⟩ := List.mem_map.1 hy
      obtain ⟨h1, h2, h3⟩ := hl n hn
      refine mul_nonneg (mul_nonneg (by linarith) h2) ?_
      cases hs : n.scale with
      | none => norm_num
      | some m => exact div_nonneg (by linarith) (by have := h3 m hs; linarith)
    have hc : ∀ l : List (Nonlinearity Nx Ny), ∀ f : Nonlinearity Nx Ny → ℝ, (l.map fun n => ((f n : ℝ) : ℂ)).sum = (((l.map f).sum : ℝ) : ℂ) := by
      intro l f
      induction l with
      | nil => simp
      | cons a l ih => simp [ih]
    rw [hc, ← Complex.ofReal_mul, Complex.ofReal_re]
    exact mul_nonneg (hl _ h) (by positivity)
  · intro c hc
    rw [compute_nl_eps_nl, compute_nl_eps_nl, norm_mul, hc, one_mul]

/-- **C22**, through the public interface: `add_nl` adds one more contribution, with `χ` rescaled by `L0²`. -/
theorem C22_add_nl (s : Sim Nx Ny) (chi : ℝ) (region : Grid Nx Ny ℝ) (e : Grid Nx Ny ℂ) (i : Fin Nx) (j : Fin Ny) :
    ((s.add_nl chi region "kerr" false none).2.compute_nl e).eps_nl i j =
      (s.compute_nl e).eps_nl i j + 3 * ((chi / s.L0 ^ 2 : ℝ) : ℂ) * (region i j : ℂ) * (‖e i j‖ : ℂ) ^ 2 := by
  have h : (s.add_nl chi region "kerr" false none).2 = { s with nonlinearity := s.nonlinearity ++ [⟨chi / s.L0 ^ 2, region, none⟩] } := rfl
  rw [h, compute_nl_eps_nl, compute_nl_eps_nl]
  simp only [Spec.kerrSum, List.map_append, List.sum_append, List.map_cons, List.map_nil, List.sum_cons, List.sum_nil, Spec.kerrCoef]
  push_cast
  ring

/-- **C22**, scaled: with `eps_scale` and an `eps_max` the added contribution is multiplied by the density `(ε-1)/(eps_max-1)`. -/
theorem C22_add_nl_scaled (s : Sim Nx Ny) (chi : ℝ) (region : Grid Nx Ny ℝ) (m : EpsMax) (e : Grid Nx Ny ℂ) (i : Fin Nx) (j : Fin Ny) :
    (s.add_nl chi region "kerr" true (some m)).1 = .ok () ∧
    ((s.add_nl chi region "kerr" true (some m)).2.compute_nl e).eps_nl i j =
      (s.compute_nl e).eps_nl i j + 3 * ((chi / s.L0 ^ 2 : ℝ) : ℂ) * (region i j : ℂ) * (‖e i j‖ : ℂ) ^ 2 * ((s.eps_r i j - 1) / (((m : ℝ) : ℂ) - 1)) := by
  have h : s.add_nl chi region "kerr" true (some m) = (.ok (), { s with nonlinearity := s.nonlinearity ++ [⟨chi / s.L0 ^ 2, region, some m⟩] }) := rfl
  refine ⟨by rw [h], ?_⟩
  rw [h, compute_nl_eps_nl, compute_nl_eps_nl]
  simp only [Spec.kerrSum, List.map_append, List.sum_append, List.map_cons, List.map_nil, List.sum_cons, List.sum_nil, Spec.kerrCoef]
  push_cast
  ring

/-- **C22, rejected calls.** `add_nl` succeeds exactly when the type is `'kerr'` and, for `eps_scale`, an `eps_max` is given; otherwise it raises `AssertionError` and adds nothing. -/
theorem C22_rejects (s : Sim Nx Ny) (chi : ℝ) (region : Grid Nx Ny ℝ) (ty : String) (sc : Bool) (m : Option EpsMax) :
    ((s.add_nl chi region ty sc m).1 = .ok () ↔ ty = "kerr" ∧ (sc = true → m ≠ none)) ∧
    ((s.add_nl chi region ty sc m).1 ≠ .ok () → s.add_nl chi region ty sc m = (.error .assertionError, s)) ∧
    ((s.add_nl chi region ty sc m).1 = .ok () → (s.add_nl chi region ty sc m).2.nonlinearity.length = s.nonlinearity.length + 1) := by
  unfold Sim.add_nl Nonlinearity.init
  by_cases ht : ty = "kerr"
  · rcases m with - | m <;> cases sc <;> simp [ht]
  · simp [ht]

example (s : Sim 2 2) : (s.add_nl 1 (fun _ _ => 1) "kerr" true none) = (.error .assertionError, s) ∧ (s.add_nl 1 (fun _ _ => 1) "kerr" false none).1 = .ok () := by
  refine ⟨(C22_rejects s _ _ _ _ _).2.1 fun h => ?_, ((C22_rejects s _ _ _ _ _).1).2 ⟨rfl, by simp⟩⟩
  exact ((C22_rejects s _ _ _ _ _).1.1 h).2 rfl rfl

/-- A Kerr simulation: the vacuum witness with `3 χ = 1` everywhere. -/
noncomputable def ksim (src : Grid 2 2 ℂ) : Sim 2 2 := { wsim .Ez (fun _ _ => 1) src with nonlinearity := [⟨1 / 3, fun _ _ => 1, none⟩] }

theorem ksim_sum (src : Grid 2 2 ℂ) (i j : Fin 2) : Spec.kerrSum (ksim src).nonlinearity (ksim src).eps_r i j = 1 := by
  simp [Spec.kerrSum, Spec.kerrCoef, ksim]

/-- Non-vacuity of C22: a unit field shifts the permittivity by 1. -/
example : ((ksim fun _ _ => 0).compute_nl fun _ _ => Complex.I).eps_nl 0 0 = 1 := by
  rw [compute_nl_eps_nl, ksim_sum]; simp

/-! ## C23 -/

/-- The residual returned by `nl_eq_and_jac`. -/
theorem nl_eq_residual (s : Sim Nx Ny) (E : Grid Nx Ny ℂ) : (nl_eq_and_jac s E).1.1 = fun k => (s.A *ᵥ flatten E) k +
      flatten (fun i j => ((s.omega ^ 2 * EPSILON_0 * s.L0 : ℝ) : ℂ) * (Spec.kerrSum s.nonlinearity s.eps_r i j * ((‖E i j‖ ^ 2 : ℝ) : ℂ)) * E i j) k
      - flatten s.src k * Complex.I * s.omega := by
  funext k
  have e1 : (nl_eq_and_jac s E).1.1 k = ((s.A + (s.compute_nl E).Anl.getD 0) *ᵥ flatten E) k - flatten s.src k * Complex.I * s.omega := rfl
  rw [e1, compute_nl_Anl, Option.getD_some, Matrix.add_mulVec, kerrMat_mulVec]
  rfl

/-- The first block of the Jacobian applied to a vector. -/
theorem nl_jac11 (s : Sim Nx Ny) (E h : Grid Nx Ny ℂ) (i : Fin Nx) (j : Fin Ny) :
    ((nl_eq_and_jac s E).1.2.1 *ᵥ flatten h) (finProdFinEquiv (i, j)) = (s.A *ᵥ flatten h) (finProdFinEquiv (i, j)) +
      2 * (((s.omega ^ 2 * EPSILON_0 * s.L0 : ℝ) : ℂ) * Spec.kerrSum s.nonlinearity s.eps_r i j * (E i j * (starRingEnd ℂ) (E i j)) * h i j) := by
  have e1 : (nl_eq_and_jac s E).1.2.1 = (s.A + (s.compute_nl E).Anl.getD 0) +
      spdiag (fun k => (flatten (s.compute_nl E).dnl_de k * (s.omega : ℂ) ^ 2 * ((EPSILON_0 * s.L0 : ℝ) : ℂ)) * flatten E k) := rfl
  rw [e1, compute_nl_Anl, Option.getD_some, Matrix.add_mulVec, Matrix.add_mulVec, kerrMat_mulVec, spdiag_mulVec]
  have hn : (((‖E i j‖ ^ 2 : ℝ)) : ℂ) = E i j * (starRingEnd ℂ) (E i j) := by
    rw [← Complex.normSq_eq_norm_sq, ← Complex.mul_conj]
  simp only [Pi.add_apply, flatten_pair, compute_nl_dnl_de, hn]
  push_cast
  ring

/-- The second block applied to a vector; note the conjugated coefficient. -/
theorem nl_jac12 (s : Sim Nx Ny) (E h : Grid Nx Ny ℂ) (i : Fin Nx) (j : Fin Ny) :
    ((nl_eq_and_jac s E).1.2.2 *ᵥ flatten h) (finProdFinEquiv (i, j)) =
      ((s.omega ^ 2 * EPSILON_0 * s.L0 : ℝ) : ℂ) * (starRingEnd ℂ) (Spec.kerrSum s.nonlinearity s.eps_r i j) * E i j * E i j * h i j := by
  have e1 : (nl_eq_and_jac s E).1.2.2 =
      spdiag (fun k => (starRingEnd ℂ) (flatten (s.compute_nl E).dnl_de k * (s.omega : ℂ) ^ 2 * ((EPSILON_0 * s.L0 : ℝ) : ℂ)) * flatten E k) := rfl
  rw [e1, spdiag_mulVec]
  simp only [flatten_pair, compute_nl_dnl_de, map_mul, map_pow, Complex.conj_conj, Complex.conj_ofReal]
  push_cast; ring

/-- The derivative of the residual in a direction `h`. -/
theorem nl_eq_hasDerivAt (s : Sim Nx Ny) (E h : Grid Nx Ny ℂ) (i : Fin Nx) (j : Fin Ny) :
    HasDerivAt (fun t : ℝ => (nl_eq_and_jac s fun i j => E i j + t * h i j).1.1 (finProdFinEquiv (i, j)))
      ((s.A *ᵥ flatten h) (finProdFinEquiv (i, j)) + ((s.omega ^ 2 * EPSILON_0 * s.L0 : ℝ) : ℂ) * Spec.kerrSum s.nonlinearity s.eps_r i j *
        (2 * (E i j * (starRingEnd ℂ) (E i j)) * h i j + E i j * E i j * (starRingEnd ℂ) (h i j))) 0 := by
  set c : ℂ := ((s.omega ^ 2 * EPSILON_0 * s.L0 : ℝ) : ℂ) with hc
  set G := Spec.kerrSum s.nonlinearity s.eps_r i j with hG
  have hline : ∀ a b : ℂ, HasDerivAt (fun t : ℝ => a + (t : ℂ) * b) b 0 := by
    intro a b
    have := (((hasDerivAt_id (0 : ℝ)).ofReal_comp).mul_const b).const_add a
    exact this.congr_deriv (by simp)
  have hfun : (fun t : ℝ => (nl_eq_and_jac s fun i j => E i j + t * h i j).1.1 (finProdFinEquiv (i, j))) = fun t : ℝ =>
      ((s.A *ᵥ flatten E) (finProdFinEquiv (i, j)) + (t : ℂ) * (s.A *ᵥ flatten h) (finProdFinEquiv (i, j))) +
      c * G * ((E i j + t * h i j) * ((starRingEnd ℂ) (E i j) + t * (starRingEnd ℂ) (h i j)) * (E i j + t * h i j))
      - flatten s.src (finProdFinEquiv (i, j)) * Complex.I * s.omega := by
    funext t
    rw [nl_eq_residual]
    have hl : flatten (fun i j => E i j + (t : ℂ) * h i j) = flatten E + (t : ℂ) • flatten h := rfl
    have hn : (((‖E i j + (t : ℂ) * h i j‖ ^ 2 : ℝ)) : ℂ) = (E i j + t * h i j) * ((starRingEnd ℂ) (E i j) + t * (starRingEnd ℂ) (h i j)) := by
      rw [← Complex.normSq_eq_norm_sq, ← Complex.mul_conj]
      simp
    simp only [flatten_pair, hl, Matrix.mulVec_add, Matrix.mulVec_smul, Pi.add_apply, Pi.smul_apply, smul_eq_mul, hn, ← hG, ← hc]
    ring
  rw [hfun]
  have h1 := hline ((s.A *ᵥ flatten E) (finProdFinEquiv (i, j))) ((s.A *ᵥ flatten h) (finProdFinEquiv (i, j)))
  have h2 := hline (E i j) (h i j)
  have h3 := hline ((starRingEnd ℂ) (E i j)) ((starRingEnd ℂ) (h i j))
  refine ((h1.add (((h2.mul h3).mul h2).const_mul (c * G))).sub_const _).congr_deriv ?_
  simp only [Complex.ofReal_zero, zero_mul, add_zero, Pi.mul_apply]
  ring

/-- **C23 (partial).** `f(E) = (A + ω²ε₀ ε_nl(E)) E - iω src`, and the derivative of `f` at `E` in every direction `h` is `J11 h + J12 conj(h)`.
Full claim: every permittivity.  Proved when the sum of the Kerr coefficients is real at every pixel — e.g. no `eps_scale`, or a real permittivity (`kerrSum_real`).
Missing: a complex permittivity with `eps_scale`, where it is false (`C23_complex_scaled_fails`). -/
theorem C23_jacobian_partial (s : Sim Nx Ny) (E h : Grid Nx Ny ℂ)
    (hreal : ∀ i j, (Spec.kerrSum s.nonlinearity s.eps_r i j).im = 0) :
    (nl_eq_and_jac s E).1.1 = (fun k => (s.A *ᵥ flatten E) k +
      flatten (fun i j => ((s.omega ^ 2 * EPSILON_0 * s.L0 : ℝ) : ℂ) * (s.compute_nl E).eps_nl i j * E i j) k - Complex.I * s.omega * flatten s.src k) ∧
    ∀ k, HasDerivAt (fun t : ℝ => (nl_eq_and_jac s fun i j => E i j + t * h i j).1.1 k)
      (((nl_eq_and_jac s E).1.2.1 *ᵥ flatten h) k + ((nl_eq_and_jac s E).1.2.2 *ᵥ flatten fun i j => (starRingEnd ℂ) (h i j)) k) 0 := by
  constructor
  · rw [nl_eq_residual]
    refine flat_ext fun i j => ?_
    simp only [flatten_pair, compute_nl_eps_nl]
    ring
  · intro k
    obtain ⟨⟨i, j⟩, rfl⟩ := finProdFinEquiv.surjective k
    have hGc := Complex.conj_eq_iff_im.2 (hreal i j)
    rw [nl_jac11, nl_jac12, hGc]
    exact (nl_eq_hasDerivAt s E h i j).congr_deriv (by ring)

/-- A lossy simulation with a Kerr nonlinearity scaled by the density (`ε = 1+i`, `ε_max = 2`). -/
noncomputable def lossySim : Sim 2 2 := { wsim .Ez (fun _ _ => 1 + Complex.I) (fun _ _ => 0) with nonlinearity := [⟨1 / 3, fun _ _ => 1, some ⟨2, by norm_num⟩⟩] }

/-- **C23, negation.** With a lossy (complex) permittivity and `eps_scale`, `J11 h + J12 conj(h)` is not the derivative: the code conjugates the whole of `dnl_de`. -/
theorem C23_complex_scaled_fails :
    ¬ HasDerivAt (fun t : ℝ => (nl_eq_and_jac lossySim fun _ _ => 1 + t * 1).1.1 (finProdFinEquiv (0, 0)))
      (((nl_eq_and_jac lossySim fun _ _ => 1).1.2.1 *ᵥ flatten fun _ _ => 1) (finProdFinEquiv (0, 0)) +
        ((nl_eq_and_jac lossySim fun _ _ => 1).1.2.2 *ᵥ flatten fun _ _ => (starRingEnd ℂ) 1) (finProdFinEquiv (0, 0))) 0 := by
  intro hcontra
  have hG : Spec.kerrSum lossySim.nonlinearity lossySim.eps_r 0 0 = Complex.I := by
    simp [Spec.kerrSum, Spec.kerrCoef, lossySim, wsim]
    norm_num
  have hc : (((lossySim.omega ^ 2 * EPSILON_0 * lossySim.L0 : ℝ)) : ℂ) = 1 := by
    have : lossySim.omega ^ 2 * EPSILON_0 * lossySim.L0 = 1 := by
      show (1 : ℝ) ^ 2 * EPSILON_0 * (1 / EPSILON_0) = 1
      have := EPSILON_0_pos.ne'
      field_simp
    rw [this]; simp
  have e := hcontra.unique (nl_eq_hasDerivAt lossySim (fun _ _ => 1) (fun _ _ => 1) 0 0)
  rw [nl_jac11, nl_jac12, hG, hc] at e
  have e' : (0 : ℂ) = 2 * Complex.I := by
    simp only [map_one, Complex.conj_I] at e
    linear_combination e
  have := congrArg Complex.im e'
  simp at this

/-- The hypothesis of C23 holds when no nonlinearity is scaled or the permittivity is real. -/
theorem kerrSum_real (s : Sim Nx Ny) (i : Fin Nx) (j : Fin Ny) (h : (∀ n ∈ s.nonlinearity, n.scale = none) ∨ (s.eps_r i j).im = 0) :
    (Spec.kerrSum s.nonlinearity s.eps_r i j).im = 0 := by
  unfold Spec.kerrSum
  have key : ∀ l : List (Nonlinearity Nx Ny), (∀ n ∈ l, (Spec.kerrCoef n s.eps_r i j).im = 0) → ((l.map fun n => Spec.kerrCoef n s.eps_r i j).sum).im = 0 := by
    intro l hl
    induction l with
    | nil => simp
    | cons a l ih =>
      rw [List.map_cons, List.sum_cons, Complex.add_im, hl a (by simp), ih fun n hn => hl n (by simp [hn]), add_zero]
  refine key _ fun n hn => ?_
  have e3 : ∀ r : ℝ, ∀ z : ℂ, z.im = 0 → (((3 : ℂ) * (n.chi : ℂ) * (r : ℂ)) * z).im = 0 := by
    intro r z hz
    have : (3 : ℂ) * (n.chi : ℂ) * (r : ℂ) = ((3 * n.chi * r : ℝ) : ℂ) := by push_cast; ring
    rw [this, Complex.im_ofReal_mul, hz, mul_zero]
  unfold Spec.kerrCoef
  refine e3 _ _ ?_
  rcases h with h | h
  · rw [h n hn]; simp
  · cases n.scale with
    | none => simp
    | some m =>
      have : (((m : ℝ) : ℂ) - 1) = (((m : ℝ) - 1 : ℝ) : ℂ) := by push_cast; ring
      simp only [this, Complex.div_ofReal_im]
      simp [h]

/-- Non-vacuity of C23. -/
example (src : Grid 2 2 ℂ) (i j : Fin 2) : (Spec.kerrSum (ksim src).nonlinearity (ksim src).eps_r i j).im = 0 := by rw [ksim_sum]; simp

end Angler
