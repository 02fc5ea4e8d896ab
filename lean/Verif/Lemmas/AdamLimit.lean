import Verif.Lemmas.DescentLimit

/-! # The first steps of Adam as the step size tends to zero -/

namespace Angler

open Filter Topology

variable {Nx Ny : ℕ}

/-- The first step of Adam from a density with gradient `g`, cut off at the bounds. -/
noncomputable def adamDir (design x g : Grid Nx Ny ℝ) : Grid Nx Ny ℝ := fun i j =>
  if design i j = 1 then if (0 < g i j ∧ x i j = 1) ∨ (g i j < 0 ∧ x i j = 0) then 0 else g i j / (|g i j| + 1e-8) else 0

theorem average_tendsto {ι : Type*} {l : Filter ι} {b : ℝ} (h0 : 0 ≤ b) (h1 : b < 1) (f : ι → ℕ → ℝ) (a : ℝ) (n : ℕ) (h : ∀ k ≤ n, Tendsto (fun t => f t k) l (𝓝 a)) :
    Tendsto (fun t => Spec.average b (f t) n) l (𝓝 a) := by
  have e : a = ∑ k ∈ Finset.range (n + 1), Spec.weight b n k * a := by rw [← Finset.sum_mul, (C39_weights b h0 h1 n).2, one_mul]
  rw [e]
  refine tendsto_finsetSum _ fun k hk => ?_
  exact (h k (by have := Finset.mem_range.1 hk; omega)).const_mul _

theorem adamStep_tendsto {ι : Type*} {l : Filter ι} {b1 b2 : ℝ} (h1 : 0 ≤ b1 ∧ b1 < 1) (h2 : 0 ≤ b2 ∧ b2 < 1) (g : ι → ℕ → Grid Nx Ny ℝ) (i : Fin Nx) (j : Fin Ny) (a : ℝ) (n : ℕ)
    (h : ∀ k ≤ n, Tendsto (fun t => g t k i j) l (𝓝 a)) : Tendsto (fun t => Spec.adamStep b1 b2 (g t) n i j) l (𝓝 (a / (|a| + 1e-8))) := by
  unfold Spec.adamStep
  have ha := average_tendsto h1.1 h1.2 (fun t k => g t k i j) a n h
  have hb := average_tendsto h2.1 h2.2 (fun t k => g t k i j ^ 2) (a ^ 2) n fun k hk => (h k hk).pow 2
  have hc := (Real.continuous_sqrt.tendsto _).comp hb
  rw [Real.sqrt_sq_eq_abs] at hc
  have hpos : |a| + 1e-8 ≠ 0 := by positivity
  exact ha.div (hc.add_const _) hpos

theorem partials_tendsto_of {ι : Type*} {l : Filter ι} {F : Grid Nx Ny ℝ → ℝ} (hF : ∀ x, Spec.Box x → ContDiffAt ℝ 1 F x) {r : ι → Grid Nx Ny ℝ} (hr : ∀ k, Spec.Box (r k)) {y : Grid Nx Ny ℝ}
    (hy : Spec.Box y) (h : Tendsto r l (𝓝 y)) (i : Fin Nx) (j : Fin Ny) : Tendsto (fun k => Spec.partials F (r k) i j) l (𝓝 (Spec.partials F y i j)) := by
  have hc : ContinuousAt (fderiv ℝ F) y := ((hF y hy).fderiv_right (m := 0) (by norm_num)).continuousAt
  have h1 := hc.tendsto.comp h
  have h2 : Tendsto (fun k => fderiv ℝ F (r k) fun p q => if p = i ∧ q = j then 1 else 0) l (𝓝 (fderiv ℝ F y fun p q => if p = i ∧ q = j then 1 else 0)) :=
    ((ContinuousLinearMap.apply ℝ ℝ (fun p q => if p = i ∧ q = j then 1 else 0 : Grid Nx Ny ℝ)).continuous.tendsto _).comp h1
  rw [partials_eq_fderiv ((hF y hy).differentiableAt (by norm_num))]
  refine h2.congr fun k => ?_
  rw [partials_eq_fderiv ((hF (r k) (hr k)).differentiableAt (by norm_num))]

/-- One pixel: the quotient of the clipped change and the step size. -/
theorem clip_quot {a d : ℝ → ℝ} {x γ : ℝ} (hx : 0 ≤ x ∧ x ≤ 1) (hb : ∀ s, 0 ≤ a s ∧ a s ≤ 1) (ha : Tendsto a (𝓝[>] 0) (𝓝 x)) (hd : Tendsto d (𝓝[>] 0) (𝓝 (γ / (|γ| + 1e-8))))
    (hst : ((0 < γ ∧ x = 1) ∨ (γ < 0 ∧ x = 0)) → ∀ᶠ s in 𝓝[>] (0 : ℝ), a s = x) :
    Tendsto (fun s => (max 0 (min 1 (a s + s * d s)) - a s) / s) (𝓝[>] 0) (𝓝 (if (0 < γ ∧ x = 1) ∨ (γ < 0 ∧ x = 0) then 0 else γ / (|γ| + 1e-8))) ∧
    (((0 < γ ∧ x = 1) ∨ (γ < 0 ∧ x = 0)) → ∀ᶠ s in 𝓝[>] (0 : ℝ), max 0 (min 1 (a s + s * d s)) = x) := by
  have hs0 : ∀ᶠ s in 𝓝[>] (0 : ℝ), 0 < s := eventually_mem_nhdsWithin
  have hden : 0 < |γ| + 1e-8 := by positivity
  have hid : Tendsto (fun s : ℝ => s) (𝓝[>] 0) (𝓝 0) := tendsto_nhdsWithin_of_tendsto_nhds tendsto_id
  have hmov : Tendsto (fun s => a s + s * d s) (𝓝[>] 0) (𝓝 x) := by
    have := ha.add (hid.mul hd)
    rwa [zero_mul, add_zero] at this
  rcases lt_trichotomy γ 0 with hγ | hγ | hγ
  · have hdn : ∀ᶠ s in 𝓝[>] (0 : ℝ), d s < 0 := hd.eventually (gt_mem_nhds (div_neg_of_neg_of_pos hγ hden))
    by_cases hx0 : x = 0
    · have hc : (0 < γ ∧ x = 1) ∨ (γ < 0 ∧ x = 0) := Or.inr ⟨hγ, hx0⟩
      have hfin : ∀ᶠ s in 𝓝[>] (0 : ℝ), max 0 (min 1 (a s + s * d s)) = x := by
        filter_upwards [hst hc, hdn, hs0] with s h1 h2 h3
        have : s * d s < 0 := mul_neg_of_pos_of_neg h3 h2
        rw [h1, hx0, zero_add, min_eq_right (by linarith), max_eq_left this.le]
      refine ⟨?_, fun _ => hfin⟩
      rw [if_pos hc]
      refine tendsto_const_nhds.congr' ?_
      filter_upwards [hfin, hst hc] with s h1 h2
      rw [h1, h2, sub_self, zero_div]
    · have hc : ¬ ((0 < γ ∧ x = 1) ∨ (γ < 0 ∧ x = 0)) := by
        rintro (h | h)
        · exact absurd h.1 (not_lt.2 hγ.le)
        · exact hx0 h.2
      refine ⟨?_, fun h => absurd h hc⟩
      rw [if_neg hc]
      refine hd.congr' ?_
      filter_upwards [hdn, hs0, hmov.eventually (lt_mem_nhds (lt_of_le_of_ne hx.1 (Ne.symm hx0)))] with s h1 h2 h3
      have h4 : s * d s < 0 := mul_neg_of_pos_of_neg h2 h1
      rw [min_eq_right (by linarith [(hb s).2]), max_eq_right h3.le, add_sub_cancel_left, mul_div_cancel_left₀ _ h2.ne']
  · subst hγ
    have hc : ¬ (((0 : ℝ) < 0 ∧ x = 1) ∨ ((0 : ℝ) < 0 ∧ x = 0)) := by
      rintro (h | h) <;> exact lt_irrefl _ h.1
    refine ⟨?_, fun h => absurd h hc⟩
    rw [if_neg hc, zero_div]
    rw [zero_div] at hd
    refine squeeze_zero_norm' (a := fun s => |d s|) ?_ (by simpa using hd.abs)
    filter_upwards [hs0] with s h1
    have hbs := hb s
    suffices key : |max 0 (min 1 (a s + s * d s)) - a s| ≤ |s * d s| by
      rw [Real.norm_eq_abs, abs_div, abs_of_pos h1, div_le_iff₀ h1]
      rw [abs_mul, abs_of_pos h1] at key
      linarith
    rcases le_total (a s + s * d s) 0 with h0 | h0
    · rw [min_eq_right (by linarith), max_eq_left h0, zero_sub, abs_neg, abs_of_nonneg hbs.1]
      exact le_trans (by linarith) (neg_le_abs _)
    · rcases le_total (a s + s * d s) 1 with h2 | h2
      · rw [min_eq_right h2, max_eq_right h0, add_sub_cancel_left]
      · rw [min_eq_left h2, max_eq_right zero_le_one, abs_of_nonneg (by linarith)]
        exact le_trans (by linarith) (le_abs_self _)
  · have hdn : ∀ᶠ s in 𝓝[>] (0 : ℝ), 0 < d s := hd.eventually (lt_mem_nhds (div_pos hγ hden))
    by_cases hx0 : x = 1
    · have hc : (0 < γ ∧ x = 1) ∨ (γ < 0 ∧ x = 0) := Or.inl ⟨hγ, hx0⟩
      have hfin : ∀ᶠ s in 𝓝[>] (0 : ℝ), max 0 (min 1 (a s + s * d s)) = x := by
        filter_upwards [hst hc, hdn, hs0] with s h1 h2 h3
        have : 0 < s * d s := mul_pos h3 h2
        rw [h1, hx0, min_eq_left (by linarith), max_eq_right zero_le_one]
      refine ⟨?_, fun _ => hfin⟩
      rw [if_pos hc]
      refine tendsto_const_nhds.congr' ?_
      filter_upwards [hfin, hst hc] with s h1 h2
      rw [h1, h2, sub_self, zero_div]
    · have hc : ¬ ((0 < γ ∧ x = 1) ∨ (γ < 0 ∧ x = 0)) := by
        rintro (h | h)
        · exact hx0 h.2
        · exact absurd h.1 (not_lt.2 hγ.le)
      refine ⟨?_, fun h => absurd h hc⟩
      rw [if_neg hc]
      refine hd.congr' ?_
      filter_upwards [hdn, hs0, hmov.eventually (gt_mem_nhds (lt_of_le_of_ne hx.2 hx0))] with s h1 h2 h3
      have h4 : 0 < s * d s := mul_pos h2 h1
      rw [min_eq_right h3.le, max_eq_right (by linarith [(hb s).1]), add_sub_cancel_left, mul_div_cancel_left₀ _ h2.ne']

/-- As the step size tends to zero, each of the first steps of Adam tends to the first one. -/
theorem adam_limit {F : Grid Nx Ny ℝ → ℝ} (hF : ∀ x, Spec.Box x → ContDiffAt ℝ 1 F x) {design x : Grid Nx Ny ℝ} (hx : Spec.Box x) {b1 b2 : ℝ} (h1 : 0 ≤ b1 ∧ b1 < 1) (h2 : 0 ≤ b2 ∧ b2 < 1)
    {r : ℝ → ℕ → Grid Nx Ny ℝ} (h0 : ∀ s, r s 0 = x) (hr : ∀ s, Spec.AdamPath F design s b1 b2 (r s)) (hb : ∀ s k, Spec.Box (r s k)) (k : ℕ) :
    Tendsto (fun s => r s k) (𝓝[>] 0) (𝓝 x) ∧ Tendsto (fun s => s⁻¹ • (r s (k + 1) - r s k)) (𝓝[>] 0) (𝓝 (adamDir design x (Spec.partials F x))) := by
  have hid : Tendsto (fun s : ℝ => s) (𝓝[>] 0) (𝓝 0) := tendsto_nhdsWithin_of_tendsto_nhds tendsto_id
  have hs0 : ∀ᶠ s in 𝓝[>] (0 : ℝ), 0 < s := eventually_mem_nhdsWithin
  have step : ∀ k, (∀ m ≤ k, Tendsto (fun s => r s m) (𝓝[>] 0) (𝓝 x)) →
      (∀ i j, design i j = 1 → ((0 < Spec.partials F x i j ∧ x i j = 1) ∨ (Spec.partials F x i j < 0 ∧ x i j = 0)) → ∀ᶠ s in 𝓝[>] (0 : ℝ), r s k i j = x i j) →
      Tendsto (fun s => s⁻¹ • (r s (k + 1) - r s k)) (𝓝[>] 0) (𝓝 (adamDir design x (Spec.partials F x))) ∧
      (∀ i j, design i j = 1 → ((0 < Spec.partials F x i j ∧ x i j = 1) ∨ (Spec.partials F x i j < 0 ∧ x i j = 0)) → ∀ᶠ s in 𝓝[>] (0 : ℝ), r s (k + 1) i j = x i j) := by
    intro k hk hst
    have hq := fun (i : Fin Nx) (j : Fin Ny) (hd : design i j = 1) =>
      clip_quot (a := fun s => r s k i j) (d := fun s => Spec.adamStep b1 b2 (fun m => Spec.partials F (r s m)) k i j) (γ := Spec.partials F x i j) (hx i j) (fun s => hb s k i j)
        (tendsto_pi_nhds.1 (tendsto_pi_nhds.1 (hk k le_rfl) i) j)
        (adamStep_tendsto h1 h2 (fun s m => Spec.partials F (r s m)) i j _ k fun m hm => partials_tendsto_of hF (fun s => hb s m) hx (hk m hm) i j) (hst i j hd)
    have e : ∀ s i j, design i j = 1 → r s (k + 1) i j = max 0 (min 1 (r s k i j + s * Spec.adamStep b1 b2 (fun m => Spec.partials F (r s m)) k i j)) := by
      intro s i j hd
      rw [hr s k]
      unfold Spec.move
      rw [if_pos hd]
    refine ⟨tendsto_pi_nhds.2 fun i => tendsto_pi_nhds.2 fun j => ?_, fun i j hd hc => ?_⟩
    · unfold adamDir
      by_cases hd : design i j = 1
      · rw [if_pos hd]
        refine (hq i j hd).1.congr fun s => ?_
        show _ = s⁻¹ * (r s (k + 1) i j - r s k i j)
        rw [e s i j hd, div_eq_inv_mul]
      · rw [if_neg hd]
        refine tendsto_const_nhds.congr fun s => ?_
        show (0 : ℝ) = s⁻¹ * (r s (k + 1) i j - r s k i j)
        rw [hr s k]
        unfold Spec.move
        rw [if_neg hd, sub_self, mul_zero]
    · filter_upwards [(hq i j hd).2 hc] with s hs
      rw [e s i j hd]
      exact hs
  have all : ∀ k, (∀ m ≤ k, Tendsto (fun s => r s m) (𝓝[>] 0) (𝓝 x)) ∧
      (∀ i j, design i j = 1 → ((0 < Spec.partials F x i j ∧ x i j = 1) ∨ (Spec.partials F x i j < 0 ∧ x i j = 0)) → ∀ᶠ s in 𝓝[>] (0 : ℝ), r s k i j = x i j) := by
    intro k
    induction k with
    | zero =>
      refine ⟨fun m hm => ?_, fun i j _ _ => Eventually.of_forall fun s => by rw [h0]⟩
      rw [Nat.le_zero.1 hm]
      exact tendsto_const_nhds.congr fun s => (h0 s).symm
    | succ k ih =>
      obtain ⟨hq, hst⟩ := step k ih.1 ih.2
      refine ⟨fun m hm => ?_, hst⟩
      rcases Nat.lt_or_eq_of_le hm with h | h
      · exact ih.1 m (by omega)
      · subst h
        refine tendsto_pi_nhds.2 fun i => tendsto_pi_nhds.2 fun j => ?_
        have a1 := tendsto_pi_nhds.1 (tendsto_pi_nhds.1 hq i) j
        have a2 := (tendsto_pi_nhds.1 (tendsto_pi_nhds.1 (ih.1 k le_rfl) i) j).add (hid.mul a1)
        rw [zero_mul, add_zero] at a2
        refine a2.congr' ?_
        filter_upwards [hs0] with s hs
        show r s k i j + s * (s⁻¹ * (r s (k + 1) i j - r s k i j)) = r s (k + 1) i j
        rw [mul_inv_cancel_left₀ hs.ne']
        ring
  exact ⟨(all k).1 k le_rfl, (step k (all k).1 (all k).2).1⟩

/-- The slope of the objective along the path. -/
theorem slope_limit {F : Grid Nx Ny ℝ → ℝ} {x : Grid Nx Ny ℝ} (hF : ContDiffAt ℝ 1 F x) {a b : ℝ → Grid Nx Ny ℝ} {D : Grid Nx Ny ℝ} (ha : Tendsto a (𝓝[>] 0) (𝓝 x)) (hb : Tendsto b (𝓝[>] 0) (𝓝 x))
    (hD : Tendsto (fun s => s⁻¹ • (b s - a s)) (𝓝[>] 0) (𝓝 D)) : Tendsto (fun s => s⁻¹ * (F (b s) - F (a s))) (𝓝[>] 0) (𝓝 (fderiv ℝ F x D)) := by
  have hs := hF.hasStrictFDerivAt (by norm_num)
  have h1 := hs.isLittleO.comp_tendsto (hb.prodMk_nhds ha)
  have h2 : (fun s => b s - a s) =O[𝓝[>] 0] fun s : ℝ => s := by
    have h3 := (hD.isBigO_one ℝ)
    have h4 := (Asymptotics.isBigO_refl (fun s : ℝ => s) (𝓝[>] 0)).smul h3
    refine (h4.congr' ?_ ?_)
    · filter_upwards [eventually_mem_nhdsWithin] with s hs
      rw [smul_inv_smul₀ (ne_of_gt hs)]
    · exact Eventually.of_forall fun s => by simp
  have h5 := (h1.trans_isBigO h2).tendsto_div_nhds_zero
  have h6 := ((fderiv ℝ F x).continuous.tendsto D).comp hD
  have h7 := h5.add h6
  rw [zero_add] at h7
  refine h7.congr fun s => ?_
  simp only [Function.comp, map_smul, smul_eq_mul]
  ring

theorem adamDir_ascent {F : Grid Nx Ny ℝ → ℝ} {design x : Grid Nx Ny ℝ} (hx : Spec.Box x) (hF : DifferentiableAt ℝ F x) (hns : ¬ Spec.Stationary F design x) :
    0 < fderiv ℝ F x (adamDir design x (Spec.partials F x)) := by
  rw [fderiv_eq_partials hF]
  have hnn : ∀ i j, 0 ≤ Spec.partials F x i j * adamDir design x (Spec.partials F x) i j := by
    intro i j
    unfold adamDir
    split_ifs
    · simp
    · rw [mul_div_assoc']
      exact div_nonneg (mul_self_nonneg _) (by positivity)
    · simp
  unfold Spec.Stationary at hns
  push Not at hns
  obtain ⟨i, j, hd, t, ht0, ht1, hpos⟩ := hns
  have hp : 0 < Spec.partials F x i j * adamDir design x (Spec.partials F x) i j := by
    have hne : Spec.partials F x i j ≠ 0 := by
      intro h0
      rw [h0, zero_mul] at hpos
      exact lt_irrefl _ hpos
    unfold adamDir
    rw [if_pos hd, if_neg]
    · rw [mul_div_assoc']
      exact div_pos (mul_self_pos.2 hne) (by positivity)
    · rintro (⟨h, h1⟩ | ⟨h, h1⟩)
      · rw [h1] at hpos
        nlinarith
      · rw [h1] at hpos
        nlinarith
  refine lt_of_lt_of_le hp ?_
  refine (Finset.single_le_sum (f := fun j => Spec.partials F x i j * adamDir design x (Spec.partials F x) i j) (fun j _ => hnn i j) (Finset.mem_univ j)).trans ?_
  exact Finset.single_le_sum (f := fun i => ∑ j, Spec.partials F x i j * adamDir design x (Spec.partials F x) i j) (fun i _ => Finset.sum_nonneg fun j _ => hnn i j) (Finset.mem_univ i)

/-- With a small enough step size each of the first `n` steps of Adam increases the objective. -/
theorem adam_increases {F : Grid Nx Ny ℝ → ℝ} (hF : ∀ x, Spec.Box x → ContDiffAt ℝ 1 F x) {design x : Grid Nx Ny ℝ} (hx : Spec.Box x) (hns : ¬ Spec.Stationary F design x) {b1 b2 : ℝ}
    (h1 : 0 ≤ b1 ∧ b1 < 1) (h2 : 0 ≤ b2 ∧ b2 < 1) {r : ℝ → ℕ → Grid Nx Ny ℝ} (h0 : ∀ s, r s 0 = x) (hr : ∀ s, Spec.AdamPath F design s b1 b2 (r s)) (hb : ∀ s k, Spec.Box (r s k)) (n : ℕ) :
    ∃ s0 > 0, ∀ s, 0 < s → s < s0 → ∀ k < n, F (r s k) < F (r s (k + 1)) := by
  have hk : ∀ k, ∀ᶠ s in 𝓝[>] (0 : ℝ), F (r s k) < F (r s (k + 1)) := by
    intro k
    have hl := adam_limit hF hx h1 h2 h0 hr hb
    have hs := slope_limit (hF x hx) (hl k).1 (hl (k + 1)).1 (hl k).2
    filter_upwards [hs.eventually (lt_mem_nhds (adamDir_ascent hx ((hF x hx).differentiableAt (by norm_num)) hns)), eventually_mem_nhdsWithin] with s h3 h4
    have h5 : 0 < F (r s (k + 1)) - F (r s k) := (mul_pos_iff_of_pos_left (inv_pos.2 h4)).1 h3
    linarith
  have hall : ∀ᶠ s in 𝓝[>] (0 : ℝ), ∀ k ∈ Finset.range n, F (r s k) < F (r s (k + 1)) := (Finset.eventually_all _).2 fun k _ => hk k
  obtain ⟨s0, h3, h4⟩ := mem_nhdsGT_iff_exists_Ioo_subset.1 hall
  exact ⟨s0, h3, fun s hs hs' k hkn => h4 ⟨hs, hs'⟩ k (Finset.mem_range.2 hkn)⟩

end Angler
