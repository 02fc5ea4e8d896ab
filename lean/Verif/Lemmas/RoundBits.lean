import Mathlib.Algebra.Order.Round
import Mathlib.Data.Int.Log
import Mathlib.Analysis.SpecialFunctions.Pow.Real

/-! # Rounding to `p` binary digits -/

namespace Angler

open Classical in
/-- The nearest integer, the even one of two equally near. -/
noncomputable def Spec.nearestEven (x : ℝ) : ℤ := if Int.fract x < 1 / 2 then ⌊x⌋ else if 1 / 2 < Int.fract x then ⌊x⌋ + 1 else if Even ⌊x⌋ then ⌊x⌋ else ⌊x⌋ + 1

/-- Rounding of a positive number to `p` significant binary digits, to nearest, ties to even. -/
noncomputable def Spec.rnPos (p : ℕ) (x : ℝ) : ℝ := (Spec.nearestEven (x / (2 : ℝ) ^ (Int.log 2 x - ((p : ℤ) - 1))) : ℝ) * (2 : ℝ) ^ (Int.log 2 x - ((p : ℤ) - 1))

open Classical in
/-- Rounding to `p` significant binary digits (`p = 53` for a double, with an unlimited range of exponents). -/
noncomputable def Spec.rn (p : ℕ) (x : ℝ) : ℝ := if 0 < x then Spec.rnPos p x else if x < 0 then -Spec.rnPos p (-x) else 0

/-- The numbers with at most `p` significant binary digits. -/
def Spec.Representable (p : ℕ) (x : ℝ) : Prop := ∃ k t : ℤ, |k| ≤ 2 ^ p ∧ x = (k : ℝ) * (2 : ℝ) ^ t

theorem nearestEven_floor (x : ℝ) : ⌊x⌋ ≤ Spec.nearestEven x ∧ Spec.nearestEven x ≤ ⌊x⌋ + 1 := by
  unfold Spec.nearestEven
  split_ifs <;> constructor <;> omega

theorem nearestEven_mono {x y : ℝ} (h : x ≤ y) : Spec.nearestEven x ≤ Spec.nearestEven y := by
  rcases (Int.floor_le_floor h).lt_or_eq with hl | hl
  · have h1 := (nearestEven_floor x).2
    have h2 := (nearestEven_floor y).1
    omega
  · have hf : Int.fract x ≤ Int.fract y := by
      unfold Int.fract
      rw [hl]
      linarith
    unfold Spec.nearestEven
    rw [hl]
    split_ifs <;> first | omega | (exfalso; linarith)

theorem nearestEven_intCast (n : ℤ) : Spec.nearestEven (n : ℝ) = n := by
  unfold Spec.nearestEven
  rw [Int.fract_intCast, Int.floor_intCast, if_pos (by norm_num)]

theorem nearestEven_error (x : ℝ) : |x - Spec.nearestEven x| ≤ 1 / 2 := by
  have h0 := Int.fract_nonneg x
  have h1 := Int.fract_lt_one x
  have e : x = ⌊x⌋ + Int.fract x := (Int.floor_add_fract x).symm
  unfold Spec.nearestEven
  rw [abs_le]
  split_ifs <;> push_cast <;> constructor <;> linarith

theorem rnPos_bounds {p : ℕ} (hp : 1 ≤ p) {x : ℝ} (hx : 0 < x) :
    ∃ m : ℤ, (2 : ℤ) ^ (p - 1) ≤ m ∧ m ≤ 2 ^ p ∧ Spec.rnPos p x = (m : ℝ) * (2 : ℝ) ^ (Int.log 2 x - ((p : ℤ) - 1)) ∧ m = Spec.nearestEven (x / (2 : ℝ) ^ (Int.log 2 x - ((p : ℤ) - 1))) := by
  set b := Int.log 2 x with hb
  have h1 : (2 : ℝ) ^ b ≤ x := by exact_mod_cast Int.zpow_log_le_self (b := 2) (by norm_num) hx
  have h2 : x < (2 : ℝ) ^ (b + 1) := by exact_mod_cast Int.lt_zpow_succ_log_self (b := 2) (by norm_num) x
  have hpos : (0 : ℝ) < (2 : ℝ) ^ (b - ((p : ℤ) - 1)) := by positivity
  refine ⟨Spec.nearestEven (x / (2 : ℝ) ^ (b - ((p : ℤ) - 1))), ?_, ?_, rfl, rfl⟩
  · have h3 : (((2 : ℤ) ^ (p - 1) : ℤ) : ℝ) ≤ x / (2 : ℝ) ^ (b - ((p : ℤ) - 1)) := by
      rw [le_div_iff₀ hpos]
      push_cast
      rw [← zpow_natCast, ← zpow_add₀ (by norm_num), show ((p - 1 : ℕ) : ℤ) + (b - ((p : ℤ) - 1)) = b by omega]
      exact h1
    have := nearestEven_mono h3
    rwa [nearestEven_intCast] at this
  · have h3 : x / (2 : ℝ) ^ (b - ((p : ℤ) - 1)) ≤ (((2 : ℤ) ^ p : ℤ) : ℝ) := by
      rw [div_le_iff₀ hpos]
      push_cast
      rw [← zpow_natCast, ← zpow_add₀ (by norm_num), show (p : ℤ) + (b - ((p : ℤ) - 1)) = b + 1 by omega]
      exact h2.le
    have := nearestEven_mono h3
    rwa [nearestEven_intCast] at this

theorem rnPos_between {p : ℕ} (hp : 1 ≤ p) {x : ℝ} (hx : 0 < x) : (2 : ℝ) ^ (Int.log 2 x) ≤ Spec.rnPos p x ∧ Spec.rnPos p x ≤ (2 : ℝ) ^ (Int.log 2 x + 1) := by
  obtain ⟨m, h1, h2, h3, -⟩ := rnPos_bounds hp hx
  set b := Int.log 2 x with hb
  have hpos : (0 : ℝ) < (2 : ℝ) ^ (b - ((p : ℤ) - 1)) := by positivity
  rw [h3]
  constructor
  · have : (2 : ℝ) ^ b = (((2 : ℤ) ^ (p - 1) : ℤ) : ℝ) * (2 : ℝ) ^ (b - ((p : ℤ) - 1)) := by
      push_cast
      rw [← zpow_natCast, ← zpow_add₀ (by norm_num), show ((p - 1 : ℕ) : ℤ) + (b - ((p : ℤ) - 1)) = b by omega]
    rw [this]
    exact mul_le_mul_of_nonneg_right (by exact_mod_cast h1) hpos.le
  · have : (2 : ℝ) ^ (b + 1) = (((2 : ℤ) ^ p : ℤ) : ℝ) * (2 : ℝ) ^ (b - ((p : ℤ) - 1)) := by
      push_cast
      rw [← zpow_natCast, ← zpow_add₀ (by norm_num), show (p : ℤ) + (b - ((p : ℤ) - 1)) = b + 1 by omega]
    rw [this]
    exact mul_le_mul_of_nonneg_right (by exact_mod_cast h2) hpos.le

theorem rnPos_pos {p : ℕ} (hp : 1 ≤ p) {x : ℝ} (hx : 0 < x) : 0 < Spec.rnPos p x := lt_of_lt_of_le (by positivity) (rnPos_between hp hx).1

theorem rnPos_mono {p : ℕ} (hp : 1 ≤ p) {x y : ℝ} (hx : 0 < x) (h : x ≤ y) : Spec.rnPos p x ≤ Spec.rnPos p y := by
  rcases (Int.log_mono_right (b := 2) hx h).lt_or_eq with hl | hl
  · refine (rnPos_between hp hx).2.trans (le_trans ?_ (rnPos_between hp (hx.trans_le h)).1)
    exact zpow_le_zpow_right₀ (by norm_num) (by omega)
  · unfold Spec.rnPos
    rw [hl]
    refine mul_le_mul_of_nonneg_right ?_ (by positivity)
    exact_mod_cast nearestEven_mono (div_le_div_of_nonneg_right h (by positivity))

theorem rnPos_error {p : ℕ} {x : ℝ} (hx : 0 < x) : |Spec.rnPos p x - x| ≤ (1 / 2) ^ p * x := by
  unfold Spec.rnPos
  have h1 : (2 : ℝ) ^ Int.log 2 x ≤ x := by exact_mod_cast Int.zpow_log_le_self (b := 2) (by norm_num) hx
  set b := Int.log 2 x with hb
  set w := (2 : ℝ) ^ (b - ((p : ℤ) - 1)) with hw
  have hpos : 0 < w := by rw [hw]; positivity
  have h2 := nearestEven_error (x / w)
  have e : (Spec.nearestEven (x / w) : ℝ) * w - x = -((x / w - Spec.nearestEven (x / w)) * w) := by field_simp; ring
  rw [e, abs_neg, abs_mul, abs_of_pos hpos]
  have e2 : (1 / 2 : ℝ) * w = (1 / 2) ^ p * (2 : ℝ) ^ b := by
    rw [hw, one_div, inv_pow, ← zpow_natCast, ← zpow_neg, ← zpow_add₀ (by norm_num), ← zpow_neg_one, ← zpow_add₀ (by norm_num)]
    congr 1
    ring
  have h3 : (1 / 2 : ℝ) ^ p * (2 : ℝ) ^ b ≤ (1 / 2) ^ p * x := mul_le_mul_of_nonneg_left h1 (by positivity)
  have h4 := mul_le_mul_of_nonneg_right h2 hpos.le
  linarith

theorem rnPos_fix {p : ℕ} (hp : 1 ≤ p) {k t : ℤ} (hk : 0 < k) (hk' : k ≤ 2 ^ p) : Spec.rnPos p ((k : ℝ) * (2 : ℝ) ^ t) = (k : ℝ) * (2 : ℝ) ^ t := by
  have hx : (0 : ℝ) < (k : ℝ) * (2 : ℝ) ^ t := mul_pos (by exact_mod_cast hk) (by positivity)
  unfold Spec.rnPos
  have h1 : (2 : ℝ) ^ Int.log 2 ((k : ℝ) * (2 : ℝ) ^ t) ≤ (k : ℝ) * (2 : ℝ) ^ t := by exact_mod_cast Int.zpow_log_le_self (b := 2) (by norm_num) hx
  set b := Int.log 2 ((k : ℝ) * (2 : ℝ) ^ t) with hb
  set e := b - ((p : ℤ) - 1) with he
  have hint : ∃ n : ℤ, (k : ℝ) * (2 : ℝ) ^ t / (2 : ℝ) ^ e = n := by
    rw [mul_div_assoc, ← zpow_sub₀ (by norm_num)]
    rcases le_or_gt e t with h | h
    · refine ⟨k * 2 ^ (t - e).toNat, ?_⟩
      push_cast
      rw [← zpow_natCast, Int.toNat_of_nonneg (by omega)]
    · have h2 : (2 : ℝ) ^ (b - t) ≤ (k : ℝ) := by
        rw [zpow_sub₀ (by norm_num), div_le_iff₀ (by positivity)]
        exact h1
      have h3 : (2 : ℝ) ^ (p : ℤ) ≤ (2 : ℝ) ^ (b - t) := zpow_le_zpow_right₀ (by norm_num) (by omega)
      have hk2 : (k : ℝ) ≤ (2 : ℝ) ^ (p : ℤ) := by rw [zpow_natCast]; exact_mod_cast hk'
      have h4 : (k : ℝ) = (2 : ℝ) ^ (p : ℤ) := le_antisymm hk2 (h3.trans h2)
      have h5 : b - t = p := by
        have h6 : (2 : ℝ) ^ (b - t) = (2 : ℝ) ^ (p : ℤ) := le_antisymm (h2.trans hk2) h3
        exact zpow_right_injective₀ (by norm_num) (by norm_num) h6
      refine ⟨2 ^ (p - 1), ?_⟩
      rw [h4, ← zpow_add₀ (by norm_num)]
      push_cast
      rw [← zpow_natCast]
      congr 1
      omega
  obtain ⟨n, hn⟩ := hint
  rw [hn, nearestEven_intCast, ← hn]
  field_simp

/-- Rounding to `p` digits: the facts used. -/
theorem rn_of_pos {p : ℕ} {x : ℝ} (hx : 0 < x) : Spec.rn p x = Spec.rnPos p x := by
  unfold Spec.rn
  rw [if_pos hx]

theorem rn_zero (p : ℕ) : Spec.rn p 0 = 0 := by simp [Spec.rn]

theorem rn_neg (p : ℕ) (x : ℝ) : Spec.rn p (-x) = -Spec.rn p x := by
  rcases lt_trichotomy x 0 with h | h | h
  · rw [rn_of_pos (by linarith)]
    unfold Spec.rn
    rw [if_neg (by linarith), if_pos h, neg_neg]
  · rw [h, neg_zero, rn_zero, neg_zero]
  · unfold Spec.rn
    rw [if_neg (by linarith), if_pos (by linarith), if_pos h, neg_neg]

theorem rn_pos {p : ℕ} (hp : 1 ≤ p) {x : ℝ} (hx : 0 < x) : 0 < Spec.rn p x := by
  rw [rn_of_pos hx]
  exact rnPos_pos hp hx

theorem rn_mono {p : ℕ} (hp : 1 ≤ p) : Monotone (Spec.rn p) := by
  intro x y h
  rcases lt_trichotomy x 0 with hx | hx | hx
  · rcases lt_or_ge y 0 with hy | hy
    · have h1 := rnPos_mono hp (x := -y) (y := -x) (by linarith) (by linarith)
      have h2 := rn_neg p (-x)
      have h3 := rn_neg p (-y)
      rw [neg_neg, rn_of_pos (x := -x) (by linarith)] at h2
      rw [neg_neg, rn_of_pos (x := -y) (by linarith)] at h3
      rw [h2, h3]
      linarith
    · have h1 := rn_pos hp (x := -x) (by linarith)
      rw [rn_neg] at h1
      rcases hy.lt_or_eq with hy | hy
      · have := rn_pos hp hy
        linarith
      · rw [← hy, rn_zero]
        linarith
  · subst hx
    rw [rn_zero]
    rcases h.lt_or_eq with hy | hy
    · exact (rn_pos hp hy).le
    · rw [← hy, rn_zero]
  · rw [rn_of_pos hx, rn_of_pos (hx.trans_le h)]
    exact rnPos_mono hp hx h

theorem rn_error (p : ℕ) (x : ℝ) : |Spec.rn p x - x| ≤ (1 / 2) ^ p * |x| := by
  rcases lt_trichotomy x 0 with h | h | h
  · have h2 := rn_neg p (-x)
    rw [neg_neg] at h2
    have h1 := rnPos_error (p := p) (x := -x) (by linarith)
    rw [h2, rn_of_pos (by linarith), abs_of_neg h, ← abs_neg]
    convert h1 using 2
    ring
  · simp [h, rn_zero]
  · rw [rn_of_pos h, abs_of_pos h]
    exact rnPos_error h

theorem rn_fix {p : ℕ} (hp : 1 ≤ p) {x : ℝ} (hx : Spec.Representable p x) : Spec.rn p x = x := by
  obtain ⟨k, t, hk, rfl⟩ := hx
  have h2 : (0 : ℝ) < (2 : ℝ) ^ t := by positivity
  rw [abs_le] at hk
  rcases lt_trichotomy k 0 with h | h | h
  · have h1 := rnPos_fix hp (k := -k) (t := t) (by omega) (by omega)
    have h3 : (0 : ℝ) < ((-k : ℤ) : ℝ) * (2 : ℝ) ^ t := mul_pos (by exact_mod_cast (by omega : 0 < -k)) h2
    have h4 := rn_neg p (((-k : ℤ) : ℝ) * (2 : ℝ) ^ t)
    rw [rn_of_pos h3, h1] at h4
    have e : -(((-k : ℤ) : ℝ) * (2 : ℝ) ^ t) = (k : ℝ) * (2 : ℝ) ^ t := by push_cast; ring
    rwa [e] at h4
  · simp [h, rn_zero]
  · rw [rn_of_pos (mul_pos (by exact_mod_cast h) h2)]
    exact rnPos_fix hp h hk.2

theorem rn_representable {p : ℕ} (hp : 1 ≤ p) (x : ℝ) : Spec.Representable p (Spec.rn p x) := by
  have key : ∀ y : ℝ, 0 < y → Spec.Representable p (Spec.rnPos p y) := by
    intro y hy
    obtain ⟨m, h1, h2, h3, -⟩ := rnPos_bounds hp hy
    refine ⟨m, _, ?_, h3⟩
    rw [abs_of_nonneg ((by positivity : (0 : ℤ) ≤ 2 ^ (p - 1)).trans h1)]
    exact h2
  rcases lt_trichotomy x 0 with h | h | h
  · obtain ⟨k, t, hk, e⟩ := key (-x) (by linarith)
    have h2 := rn_neg p (-x)
    rw [neg_neg, rn_of_pos (x := -x) (by linarith), e] at h2
    exact ⟨-k, t, by rwa [abs_neg], by rw [h2]; push_cast; ring⟩
  · rw [h, rn_zero]
    exact ⟨0, 0, by simp, by simp⟩
  · rw [rn_of_pos h]
    exact key x h

/-- A number nearer to `k 2^t` than to its neighbours rounds to it. -/
theorem rn_nearest {p : ℕ} (hp : 1 ≤ p) {x : ℝ} {k t : ℤ} (h1 : (2 : ℝ) ^ ((p : ℤ) - 1 + t) ≤ x) (h2 : x < (2 : ℝ) ^ ((p : ℤ) + t)) (h3 : |x - k * (2 : ℝ) ^ t| < (2 : ℝ) ^ t / 2) : Spec.rn p x = k * (2 : ℝ) ^ t := by
  have hx : 0 < x := lt_of_lt_of_le (by positivity) h1
  have hlog : Int.log 2 x = (p : ℤ) - 1 + t := by
    apply le_antisymm
    · have : Int.log 2 x < (p : ℤ) + t := (Int.lt_zpow_iff_log_lt (b := 2) (by norm_num) hx).mp (by exact_mod_cast h2)
      omega
    · exact (Int.zpow_le_iff_le_log (b := 2) (by norm_num) hx).mp (by exact_mod_cast h1)
  obtain ⟨m, -, -, e, e2⟩ := rnPos_bounds hp hx
  rw [hlog, show (p : ℤ) - 1 + t - ((p : ℤ) - 1) = t by ring] at e e2
  have ht : (0 : ℝ) < (2 : ℝ) ^ t := by positivity
  have h4 := nearestEven_error (x / (2 : ℝ) ^ t)
  rw [← e2] at h4
  have h5 : |x / (2 : ℝ) ^ t - k| < 1 / 2 := by
    rw [show x / (2 : ℝ) ^ t - k = (x - k * (2 : ℝ) ^ t) / (2 : ℝ) ^ t by field_simp, abs_div, abs_of_pos ht, div_lt_iff₀ ht]
    linarith
  have h6 : m = k := by
    have h7 : |((m - k : ℤ) : ℝ)| < 1 := by
      push_cast
      rw [abs_lt] at h5 ⊢
      rw [abs_le] at h4
      constructor <;> linarith [h4.1, h4.2, h5.1, h5.2]
    have h8 : |m - k| < 1 := by exact_mod_cast h7
    have := Int.abs_lt_one_iff.mp h8
    omega
  rw [rn_of_pos hx, e, h6]

/-- A number just below one rounds to one. -/
theorem rn_one_of_near {p : ℕ} (hp : 1 ≤ p) {x : ℝ} (h1 : 1 - (1 / 2) ^ (p + 1) < x) (h2 : x ≤ 1) : Spec.rn p x = 1 := by
  rcases h2.lt_or_eq with h2 | h2
  · have h3 : ((1 : ℝ) / 2) ^ (p + 1) ≤ 1 / 2 := by
      calc ((1 : ℝ) / 2) ^ (p + 1) ≤ (1 / 2) ^ 1 := pow_le_pow_of_le_one (by norm_num) (by norm_num) (by omega)
        _ = 1 / 2 := by norm_num
    have hx : 0 < x := by linarith
    have hlog : Int.log 2 x = -1 := by
      apply le_antisymm
      · have : Int.log 2 x < 0 := (Int.lt_zpow_iff_log_lt (b := 2) (by norm_num) hx).mp (by simpa using h2)
        omega
      · refine (Int.zpow_le_iff_le_log (b := 2) (by norm_num) hx).mp ?_
        norm_num
        linarith
    obtain ⟨m, -, hm, e, e2⟩ := rnPos_bounds hp hx
    rw [hlog, show (-1 : ℤ) - ((p : ℤ) - 1) = -(p : ℤ) by ring] at e e2
    have hq : x / (2 : ℝ) ^ (-(p : ℤ)) = x * 2 ^ p := by rw [zpow_neg, zpow_natCast, div_inv_eq_mul]
    rw [hq] at e2
    have h4 := (abs_le.mp (nearestEven_error (x * 2 ^ p))).2
    rw [← e2] at h4
    have h5 : (2 : ℝ) ^ p - 1 / 2 < x * 2 ^ p := by
      have h6 := mul_lt_mul_of_pos_right h1 (by positivity : (0 : ℝ) < 2 ^ p)
      have h7 : (1 - ((1 : ℝ) / 2) ^ (p + 1)) * 2 ^ p = 2 ^ p - 1 / 2 := by
        rw [sub_mul, one_mul, pow_succ, one_div, inv_pow]
        field_simp
      linarith
    have h8 : (2 : ℝ) ^ p - 1 < m := by linarith
    have h9 : (2 : ℤ) ^ p - 1 < m := by exact_mod_cast h8
    have h10 : m = 2 ^ p := by omega
    rw [rn_of_pos hx, e, h10]
    push_cast
    rw [zpow_neg, zpow_natCast, mul_inv_cancel₀ (by positivity)]
  · rw [h2]
    exact rn_fix hp ⟨1, 0, by simpa using one_le_pow₀ (by norm_num : (1 : ℤ) ≤ 2), by simp⟩

/-- Subtracting one from a representable number between `1` and `2^p` is exact. -/
theorem representable_sub_one {p : ℕ} {x : ℝ} (hx : Spec.Representable p x) (h1 : 1 ≤ x) (h2 : x ≤ 2 ^ p) : Spec.Representable p (x - 1) := by
  obtain ⟨k, t, hk, e⟩ := hx
  have h0 : (0 : ℝ) < (2 : ℝ) ^ t := by positivity
  have hkp : 0 < k := by
    by_contra hc
    have : (k : ℝ) ≤ 0 := by exact_mod_cast not_lt.mp hc
    nlinarith
  rw [abs_of_pos hkp] at hk
  rcases le_or_gt t 0 with ht | ht
  · obtain ⟨n, rfl⟩ : ∃ n : ℕ, t = -(n : ℤ) := ⟨(-t).toNat, by omega⟩
    have e1 : (1 : ℝ) = (2 : ℝ) ^ n * (2 : ℝ) ^ (-(n : ℤ)) := by rw [zpow_neg, zpow_natCast, mul_inv_cancel₀ (by positivity)]
    have h3 : (2 : ℤ) ^ n ≤ k := by
      by_contra hc
      have hc' : (k : ℝ) < (2 : ℝ) ^ n := by exact_mod_cast not_le.mp hc
      have := mul_lt_mul_of_pos_right hc' h0
      linarith
    refine ⟨k - 2 ^ n, -(n : ℤ), ?_, ?_⟩
    · rw [abs_of_nonneg (by linarith)]
      have : (0 : ℤ) < 2 ^ n := by positivity
      linarith
    · rw [e]
      push_cast
      rw [sub_mul, ← e1]
  · obtain ⟨n, rfl⟩ : ∃ n : ℕ, t = (n : ℤ) := ⟨t.toNat, by omega⟩
    rw [zpow_natCast] at e
    have h3 : k * 2 ^ n ≤ 2 ^ p := by
      have : ((k * 2 ^ n : ℤ) : ℝ) ≤ ((2 ^ p : ℤ) : ℝ) := by push_cast; rw [← e]; exact h2
      exact_mod_cast this
    have h4 : 0 < k * 2 ^ n := by positivity
    refine ⟨k * 2 ^ n - 1, 0, ?_, ?_⟩
    · rw [abs_of_nonneg (by omega)]
      omega
    · rw [e]
      push_cast
      simp

end Angler
