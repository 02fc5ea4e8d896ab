import Verif.Model.Grid
import Verif.Spec.Calculus
import Mathlib.Data.Matrix.Mul
import Mathlib.Data.Matrix.Basic
import Mathlib.Tactic.Ring
import Mathlib.Tactic.LinearCombination
import Mathlib.Algebra.BigOperators.Fin

/-! # Lemmas on flattening, `kron`, `diags` -/

namespace Angler

open Matrix

section
variable {Nx Ny : ℕ} {α : Type*}

@[simp] theorem divNat_pair (i : Fin Nx) (j : Fin Ny) : (finProdFinEquiv (i, j)).divNat = i := by
  have := finProdFinEquiv.symm_apply_apply (i, j)
  exact congrArg Prod.fst this

@[simp] theorem modNat_pair (i : Fin Nx) (j : Fin Ny) : (finProdFinEquiv (i, j)).modNat = j := by
  have := finProdFinEquiv.symm_apply_apply (i, j)
  exact congrArg Prod.snd this

@[simp] theorem pair_div_mod (k : Fin (Nx * Ny)) : finProdFinEquiv (k.divNat, k.modNat) = k :=
  finProdFinEquiv.apply_symm_apply k

@[simp] theorem flatten_pair (g : Grid Nx Ny α) (i : Fin Nx) (j : Fin Ny) : flatten g (finProdFinEquiv (i, j)) = g i j := by
  simp [flatten]

@[simp] theorem unflatten_flatten (g : Grid Nx Ny α) : unflatten (flatten g) = g := by
  funext i j; simp [unflatten]

@[simp] theorem flatten_unflatten (v : Vec (Nx * Ny) α) : flatten (unflatten v) = v := by
  funext k; simp [unflatten, flatten]

theorem flatten_injective : Function.Injective (flatten : Grid Nx Ny α → Vec (Nx * Ny) α) := fun a b h => by
  rw [← unflatten_flatten a, h, unflatten_flatten]

theorem unflatten_injective : Function.Injective (unflatten : Vec (Nx * Ny) α → Grid Nx Ny α) := fun a b h => by
  rw [← flatten_unflatten a, h, flatten_unflatten]

/-- A sum over the flattened index is a double sum. -/
theorem sum_flat {β : Type*} [AddCommMonoid β] (f : Fin (Nx * Ny) → β) :
    ∑ k, f k = ∑ i : Fin Nx, ∑ j : Fin Ny, f (finProdFinEquiv (i, j)) := by
  rw [← Equiv.sum_comp finProdFinEquiv f, Fintype.sum_prod_type]

theorem flat_ext {v w : Vec (Nx * Ny) α} (h : ∀ i j, v (finProdFinEquiv (i, j)) = w (finProdFinEquiv (i, j))) : v = w := by
  funext k
  rw [← pair_div_mod k]
  exact h _ _

end

theorem prev_next {n : ℕ} (i : Fin n) : Spec.prev (Spec.next i) = i := by
  apply Fin.ext
  have hi := i.2
  simp only [Spec.prev, Spec.next]
  rcases Nat.lt_or_ge ((i : ℕ) + 1) n with h | h
  · rw [Nat.mod_eq_of_lt h, show (i : ℕ) + 1 + (n - 1) = i + n by omega, Nat.add_mod_right, Nat.mod_eq_of_lt hi]
  · have : (i : ℕ) + 1 = n := by omega
    rw [this, Nat.mod_self, Nat.zero_add, Nat.mod_eq_of_lt (by omega)]
    omega

theorem next_prev {n : ℕ} (i : Fin n) : Spec.next (Spec.prev i) = i := by
  apply Fin.ext
  have hi := i.2
  simp only [Spec.prev, Spec.next]
  rcases Nat.eq_zero_or_pos (i : ℕ) with h | h
  · rw [h, Nat.zero_add, Nat.mod_eq_of_lt (by omega : n - 1 < n), Nat.sub_add_cancel (by omega), Nat.mod_self]
  · rw [show (i : ℕ) + (n - 1) = (i - 1) + n by omega, Nat.add_mod_right, Nat.mod_eq_of_lt (by omega : (i : ℕ) - 1 < n),
      Nat.sub_add_cancel h, Nat.mod_eq_of_lt hi]

/-- `next` as a permutation of the ring. -/
def nextEquiv (n : ℕ) : Fin n ≃ Fin n := ⟨Spec.next, Spec.prev, prev_next, next_prev⟩

theorem diags_fwd_entry {n : ℕ} (h : 1 < n) (r c : Fin n) :
    diags (R := ℂ) n [-1, 1, 1] [0, 1, -(n : ℤ) + 1] r c = (if c = Spec.next r then 1 else 0) - (if c = r then 1 else 0) := by
  have hr := r.2
  have hc := c.2
  simp only [diags, List.zip_cons_cons, List.zip_nil_right, List.map_cons, List.map_nil, List.sum_cons, List.sum_nil]
  have e1 : (((c : ℕ) : ℤ) - ((r : ℕ) : ℤ) = 0) ↔ c = r := by rw [Fin.ext_iff]; omega
  have e2 : c = Spec.next r ↔ (((c : ℕ) : ℤ) - ((r : ℕ) : ℤ) = 1) ∨ (((c : ℕ) : ℤ) - ((r : ℕ) : ℤ) = -(n : ℤ) + 1) := by
    rw [Fin.ext_iff]
    simp only [Spec.next]
    rcases Nat.lt_or_ge ((r : ℕ) + 1) n with h' | h'
    · rw [Nat.mod_eq_of_lt h']; omega
    · have : (r : ℕ) + 1 = n := by omega
      rw [this, Nat.mod_self]; omega
  have e3 : ¬ ((((c : ℕ) : ℤ) - ((r : ℕ) : ℤ) = 1) ∧ (((c : ℕ) : ℤ) - ((r : ℕ) : ℤ) = -(n : ℤ) + 1)) := by omega
  rw [if_congr e1 rfl rfl]
  by_cases h1 : ((c : ℕ) : ℤ) - ((r : ℕ) : ℤ) = 1 <;> by_cases h2 : ((c : ℕ) : ℤ) - ((r : ℕ) : ℤ) = -(n : ℤ) + 1
  · exact absurd ⟨h1, h2⟩ e3
  · rw [if_pos h1, if_neg h2, if_pos (e2.2 (Or.inl h1))]; split_ifs <;> ring
  · rw [if_neg h1, if_pos h2, if_pos (e2.2 (Or.inr h2))]; split_ifs <;> ring
  · rw [if_neg h1, if_neg h2, if_neg (fun h => (e2.1 h).elim h1 h2)]; split_ifs <;> ring

theorem diags_bwd_transpose {n : ℕ} (r c : Fin n) :
    diags (R := ℂ) n [1, -1, -1] [0, -1, (n : ℤ) - 1] r c = - diags (R := ℂ) n [-1, 1, 1] [0, 1, -(n : ℤ) + 1] c r := by
  simp only [diags, List.zip_cons_cons, List.zip_nil_right, List.map_cons, List.map_nil, List.sum_cons, List.sum_nil]
  have e1 : (((c : ℕ) : ℤ) - ((r : ℕ) : ℤ) = 0) ↔ (((r : ℕ) : ℤ) - ((c : ℕ) : ℤ) = 0) := by omega
  have e2 : (((c : ℕ) : ℤ) - ((r : ℕ) : ℤ) = -1) ↔ (((r : ℕ) : ℤ) - ((c : ℕ) : ℤ) = 1) := by omega
  have e3 : (((c : ℕ) : ℤ) - ((r : ℕ) : ℤ) = (n : ℤ) - 1) ↔ (((r : ℕ) : ℤ) - ((c : ℕ) : ℤ) = -(n : ℤ) + 1) := by omega
  rw [if_congr e1 rfl rfl, if_congr e2 rfl rfl, if_congr e3 rfl rfl]
  split_ifs <;> ring

theorem diags_bwd_entry {n : ℕ} (h : 1 < n) (r c : Fin n) :
    diags (R := ℂ) n [1, -1, -1] [0, -1, (n : ℤ) - 1] r c = (if c = r then 1 else 0) - (if c = Spec.prev r then 1 else 0) := by
  rw [diags_bwd_transpose, diags_fwd_entry h]
  have e : (r = Spec.next c) ↔ (c = Spec.prev r) :=
    ⟨fun h => by rw [h, prev_next], fun h => by rw [h, next_prev]⟩
  rw [if_congr e rfl rfl, if_congr (@eq_comm _ r c) rfl rfl]
  ring

theorem kron_transpose {R : Type*} [Mul R] {m n p q : ℕ} (A : Matrix (Fin m) (Fin n) R) (B : Matrix (Fin p) (Fin q) R) :
    (kron A B)ᵀ = kron Aᵀ Bᵀ := rfl

/-- `kron A 1` acts on the first index. -/
theorem kron_one_mulVec {m p : ℕ} (A : Mat m ℂ) (f : Grid m p ℂ) :
    kron A (1 : Mat p ℂ) *ᵥ flatten f = flatten fun i j => ∑ c, A i c * f c j := by
  refine flat_ext fun i j => ?_
  rw [mulVec, dotProduct, sum_flat]
  simp only [kron, Matrix.one_apply, divNat_pair, modNat_pair, flatten_pair, mul_ite, ite_mul, mul_one, mul_zero, zero_mul,
    Finset.sum_ite_eq, Finset.mem_univ, if_true]

/-- `kron 1 B` acts on the second index. -/
theorem one_kron_mulVec {m p : ℕ} (B : Mat p ℂ) (f : Grid m p ℂ) :
    kron (1 : Mat m ℂ) B *ᵥ flatten f = flatten fun i j => ∑ c, B j c * f i c := by
  refine flat_ext fun i j => ?_
  rw [mulVec, dotProduct, sum_flat]
  simp only [kron, Matrix.one_apply, divNat_pair, modNat_pair, flatten_pair, ite_mul, one_mul, zero_mul]
  rw [Finset.sum_eq_single i]
  · simp
  · intro b _ hb; simp [hb.symm]
  · simp

end Angler
