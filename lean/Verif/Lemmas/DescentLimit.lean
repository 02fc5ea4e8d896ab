import Verif.Lemmas.Descent
import Mathlib.Topology.Order.MonotoneConvergence
import Mathlib.Topology.Sequences

/-! # Limits of projected gradient ascent -/

namespace Angler

open Filter Topology

variable {Nx Ny : ℕ}

/-- No change of the density of a design pixel within its bounds increases `F` to first order. -/
def Spec.Stationary (F : Grid Nx Ny ℝ → ℝ) (design y : Grid Nx Ny ℝ) : Prop :=
  ∀ i j, design i j = 1 → ∀ t, 0 ≤ t → t ≤ 1 → Spec.partials F y i j * (t - y i j) ≤ 0

theorem clip_fixed {s y g : ℝ} (hs : 0 < s) (h : max 0 (min 1 (y + s * g)) = y) (t : ℝ) (h0 : 0 ≤ t) (h1 : t ≤ 1) : g * (t - y) ≤ 0 := by
  rcases le_total (y + s * g) 0 with a | a
  · rw [min_eq_right (by linarith), max_eq_left a] at h
    subst h
    have : g ≤ 0 := by nlinarith
    nlinarith
  · rcases le_total (y + s * g) 1 with b | b
    · rw [min_eq_right b, max_eq_right a] at h
      have : g = 0 := by nlinarith
      rw [this, zero_mul]
    · rw [min_eq_left b, max_eq_right zero_le_one] at h
      subst h
      have : 0 ≤ g := by nlinarith
      nlinarith

theorem stationary_of_fixed {F : Grid Nx Ny ℝ → ℝ} {design y : Grid Nx Ny ℝ} {s : ℝ} (hs : 0 < s) (h : (Spec.move design y fun i j => s * Spec.partials F y i j) = y) : Spec.Stationary F design y := by
  intro i j hd t h0 h1
  have h2 := congrFun (congrFun h i) j
  unfold Spec.move at h2
  rw [if_pos hd] at h2
  exact clip_fixed hs h2 t h0 h1

/-- The partial derivatives are continuous on the box. -/
theorem partials_tendsto {F : Grid Nx Ny ℝ → ℝ} (hF : ∀ x, Spec.Box x → ContDiffAt ℝ 2 F x) {r : ℕ → Grid Nx Ny ℝ} (hr : ∀ k, Spec.Box (r k)) {y : Grid Nx Ny ℝ} (hy : Spec.Box y)
    (h : Tendsto r atTop (𝓝 y)) (i : Fin Nx) (j : Fin Ny) : Tendsto (fun k => Spec.partials F (r k) i j) atTop (𝓝 (Spec.partials F y i j)) := by
  have hc : ContinuousAt (fderiv ℝ F) y := ((hF y hy).fderiv_right (m := 1) (by norm_num)).continuousAt
  have h1 := hc.tendsto.comp h
  have h2 : Tendsto (fun k => fderiv ℝ F (r k) fun p q => if p = i ∧ q = j then 1 else 0) atTop (𝓝 (fderiv ℝ F y fun p q => if p = i ∧ q = j then 1 else 0)) :=
    ((ContinuousLinearMap.apply ℝ ℝ (fun p q => if p = i ∧ q = j then 1 else 0 : Grid Nx Ny ℝ)).continuous.tendsto _).comp h1
  rw [partials_eq_fderiv ((hF y hy).differentiableAt (by norm_num))]
  refine h2.congr fun k => ?_
  rw [partials_eq_fderiv ((hF (r k) (hr k)).differentiableAt (by norm_num))]

theorem box_limit {r : ℕ → Grid Nx Ny ℝ} (hr : ∀ k, Spec.Box (r k)) {y : Grid Nx Ny ℝ} (h : Tendsto r atTop (𝓝 y)) : Spec.Box y :=
  (boxSet_compact (Nx := Nx) (Ny := Ny)).isClosed.mem_of_tendsto h (Eventually.of_forall hr)

theorem move_tendsto {F : Grid Nx Ny ℝ → ℝ} (hF : ∀ x, Spec.Box x → ContDiffAt ℝ 2 F x) (design : Grid Nx Ny ℝ) (s : ℝ) {r : ℕ → Grid Nx Ny ℝ} (hr : ∀ k, Spec.Box (r k)) {y : Grid Nx Ny ℝ}
    (h : Tendsto r atTop (𝓝 y)) :
    Tendsto (fun k => Spec.move design (r k) fun i j => s * Spec.partials F (r k) i j) atTop (𝓝 (Spec.move design y fun i j => s * Spec.partials F y i j)) := by
  have hy := box_limit hr h
  refine tendsto_pi_nhds.2 fun i => tendsto_pi_nhds.2 fun j => ?_
  have hij : Tendsto (fun k => r k i j) atTop (𝓝 (y i j)) := tendsto_pi_nhds.1 (tendsto_pi_nhds.1 h i) j
  have hg := partials_tendsto hF hr hy h i j
  unfold Spec.move
  split_ifs with hd
  · exact tendsto_const_nhds.max (tendsto_const_nhds.min (hij.add (hg.const_mul s)))
  · exact hij

/-- The sum of the squares of the changes of a density. -/
noncomputable def Spec.distSq (x y : Grid Nx Ny ℝ) : ℝ := ∑ i, ∑ j, (y i j - x i j) ^ 2

theorem distSq_nonneg (x y : Grid Nx Ny ℝ) : 0 ≤ Spec.distSq x y := Finset.sum_nonneg fun i _ => Finset.sum_nonneg fun j _ => sq_nonneg _

/-- A sequence of densities on which `F` increases by at least a multiple of the squared changes. -/
theorem ascent_limit {F : Grid Nx Ny ℝ → ℝ} (hF : ∀ x, Spec.Box x → ContDiffAt ℝ 2 F x) {r : ℕ → Grid Nx Ny ℝ} (hr : ∀ k, Spec.Box (r k)) {s : ℝ} (hs : 0 < s)
    (hstep : ∀ k, F (r k) + 1 / (2 * s) * Spec.distSq (r k) (r (k + 1)) ≤ F (r (k + 1))) :
    ∃ v, Tendsto (fun k => F (r k)) atTop (𝓝 v) ∧ (∀ k, F (r k) ≤ v) ∧ (∀ n, ∑ k ∈ Finset.range n, Spec.distSq (r k) (r (k + 1)) ≤ 2 * s * (v - F (r 0))) ∧
      Tendsto (fun k => Spec.distSq (r k) (r (k + 1))) atTop (𝓝 0) := by
  have hmono : Monotone fun k => F (r k) := by
    refine monotone_nat_of_le_succ fun k => ?_
    have h1 := hstep k
    have h2 : 0 ≤ 1 / (2 * s) * Spec.distSq (r k) (r (k + 1)) := mul_nonneg (by positivity) (distSq_nonneg _ _)
    linarith
  have hcont : ContinuousOn F (boxSet Nx Ny) := fun x hx => (hF x hx).continuousAt.continuousWithinAt
  obtain ⟨C, hC⟩ := (boxSet_compact (Nx := Nx) (Ny := Ny)).bddAbove_image hcont
  have hb : BddAbove (Set.range fun k => F (r k)) := ⟨C, by rintro _ ⟨k, rfl⟩; exact hC ⟨r k, hr k, rfl⟩⟩
  have ht := tendsto_atTop_ciSup hmono hb
  have hle : ∀ k, F (r k) ≤ ⨆ k, F (r k) := fun k => le_ciSup hb k
  refine ⟨_, ht, hle, fun n => ?_, ?_⟩
  · have hsum : ∀ n, 1 / (2 * s) * ∑ k ∈ Finset.range n, Spec.distSq (r k) (r (k + 1)) ≤ F (r n) - F (r 0) := by
      intro n
      induction n with
      | zero => simp
      | succ n ih =>
        rw [Finset.sum_range_succ, mul_add]
        have := hstep n
        linarith
    have h1 := hsum n
    have h2 := hle n
    rw [one_div, inv_mul_le_iff₀ (by positivity)] at h1
    refine h1.trans (mul_le_mul_of_nonneg_left ?_ (by positivity))
    linarith
  · have h1 : Tendsto (fun k => 2 * s * (F (r (k + 1)) - F (r k))) atTop (𝓝 0) := by
      have := ((ht.comp (tendsto_add_atTop_nat 1)).sub ht).const_mul (2 * s)
      rw [sub_self, mul_zero] at this
      exact this
    refine tendsto_of_tendsto_of_tendsto_of_le_of_le tendsto_const_nhds h1 (fun k => distSq_nonneg _ _) fun k => ?_
    have h2 := hstep k
    have h3 : 1 / (2 * s) * Spec.distSq (r k) (r (k + 1)) ≤ F (r (k + 1)) - F (r k) := by linarith
    rw [one_div, inv_mul_le_iff₀ (by positivity)] at h3
    exact h3

/-- If the changes of the densities of a path tend to zero, its accumulation points are stationary. -/
theorem limit_stationary {F : Grid Nx Ny ℝ → ℝ} (hF : ∀ x, Spec.Box x → ContDiffAt ℝ 2 F x) (design : Grid Nx Ny ℝ) {s : ℝ} (hs : 0 < s) {r : ℕ → Grid Nx Ny ℝ} (hr : ∀ k, Spec.Box (r k))
    (hpath : ∀ k, r (k + 1) = Spec.move design (r k) fun i j => s * Spec.partials F (r k) i j) (hd : Tendsto (fun k => Spec.distSq (r k) (r (k + 1))) atTop (𝓝 0))
    {φ : ℕ → ℕ} (hφ : StrictMono φ) {y : Grid Nx Ny ℝ} (h : Tendsto (fun k => r (φ k)) atTop (𝓝 y)) : Spec.Stationary F design y := by
  refine stationary_of_fixed hs ?_
  have h1 := move_tendsto hF design s (fun k => hr (φ k)) h
  have h2 : Tendsto (fun k => r (φ k + 1)) atTop (𝓝 y) := by
    refine tendsto_pi_nhds.2 fun i => tendsto_pi_nhds.2 fun j => ?_
    have hij : Tendsto (fun k => r (φ k) i j) atTop (𝓝 (y i j)) := tendsto_pi_nhds.1 (tendsto_pi_nhds.1 h i) j
    have h3 : Tendsto (fun k => r (φ k + 1) i j - r (φ k) i j) atTop (𝓝 0) := by
      have h4 : Tendsto (fun k => Real.sqrt (Spec.distSq (r (φ k)) (r (φ k + 1)))) atTop (𝓝 0) := by
        have := (Real.continuous_sqrt.tendsto 0).comp (hd.comp hφ.tendsto_atTop)
        rw [Real.sqrt_zero] at this
        exact this
      refine squeeze_zero_norm (fun k => ?_) h4
      rw [Real.norm_eq_abs]
      refine Real.abs_le_sqrt ?_
      refine (Finset.single_le_sum (f := fun j => (r (φ k + 1) i j - r (φ k) i j) ^ 2) (fun j _ => sq_nonneg _) (Finset.mem_univ j)).trans ?_
      exact Finset.single_le_sum (f := fun i => ∑ j, (r (φ k + 1) i j - r (φ k) i j) ^ 2) (fun i _ => Finset.sum_nonneg fun j _ => sq_nonneg _) (Finset.mem_univ i)
    have h5 := h3.add hij
    rw [zero_add] at h5
    exact h5.congr fun k => by ring
  refine tendsto_nhds_unique h1 ?_
  exact h2.congr fun k => hpath (φ k)

/-- Accumulation points exist. -/
theorem exists_accumulation {r : ℕ → Grid Nx Ny ℝ} (hr : ∀ k, Spec.Box (r k)) : ∃ (y : Grid Nx Ny ℝ) (φ : ℕ → ℕ), Spec.Box y ∧ StrictMono φ ∧ Tendsto (fun k => r (φ k)) atTop (𝓝 y) := by
  obtain ⟨y, hy, φ, hφ, h⟩ := (boxSet_compact (Nx := Nx) (Ny := Ny)).tendsto_subseq hr
  exact ⟨y, φ, hy, hφ, h⟩

/-- If all accumulation points have a property, the members of the sequence come arbitrarily close to points with the property. -/
theorem eventually_close {r : ℕ → Grid Nx Ny ℝ} (hr : ∀ k, Spec.Box (r k)) {S : Grid Nx Ny ℝ → Prop} (h : ∀ (φ : ℕ → ℕ) y, StrictMono φ → Tendsto (fun k => r (φ k)) atTop (𝓝 y) → S y) {ε : ℝ} (hε : 0 < ε) :
    ∀ᶠ n in atTop, ∃ y, Spec.Box y ∧ S y ∧ ∀ i j, |r n i j - y i j| < ε := by
  by_contra hc
  obtain ⟨φ, hφ, hbad⟩ := extraction_of_frequently_atTop (not_eventually.1 hc)
  obtain ⟨y, ψ, hy, hψ, ht⟩ := exists_accumulation fun k => hr (φ k)
  have hS := h (φ ∘ ψ) y (hφ.comp hψ) ht
  have hclose : ∀ᶠ k in atTop, ∀ i j, |r (φ (ψ k)) i j - y i j| < ε := by
    refine eventually_all.2 fun i => eventually_all.2 fun j => ?_
    have hij : Tendsto (fun k => r (φ (ψ k)) i j) atTop (𝓝 (y i j)) := tendsto_pi_nhds.1 (tendsto_pi_nhds.1 ht i) j
    exact (Metric.tendsto_nhds.1 hij ε hε).mono fun k hk => by rwa [Real.dist_eq] at hk
  obtain ⟨k, hk⟩ := hclose.exists
  exact hbad (ψ k) ⟨y, hy, hS, hk⟩

end Angler
