import Verif.Model.Simulation

/-! # `Simulation.flux_probe`, `simulation.py:249-304`

Array slices have a size that is only known at run time, so basic slicing and broadcasting are modelled with the sizes numpy computes. -/

namespace Angler

/-- Where a slice bound `a` falls in an axis of length `n`: negative bounds count from the end, everything is clamped to `[0, n]` (Python's `slice.indices`, step 1). -/
def sliceIdx (n : ℕ) (a : ℤ) : ℕ := if a < 0 then (a + n).toNat else min a.toNat n

/-- Length of the slice `[a:b]` of an axis of length `n`. -/
def sliceLen (n : ℕ) (a b : ℤ) : ℕ := sliceIdx n b - sliceIdx n a

theorem sliceIdx_le (n : ℕ) (a : ℤ) : sliceIdx n a ≤ n := by
  unfold sliceIdx
  split <;> omega

/-- The element of the axis of length `n` at position `k` of the slice `[a:b]`. -/
def sliceAt {n : ℕ} {a b : ℤ} (k : Fin (sliceLen n a b)) : Fin n :=
  ⟨sliceIdx n a + k, by have h := k.2; have := sliceIdx_le n b; unfold sliceLen at h; omega⟩

/-- `g[a:b, c:d]`. -/
def slice2 {α : Type*} {Nx Ny : ℕ} (g : Grid Nx Ny α) (a b c d : ℤ) : Grid (sliceLen Nx a b) (sliceLen Ny c d) α := fun i j => g (sliceAt i) (sliceAt j)

/-- `g[:-1, :-1]`. -/
def dropLast2 {α : Type*} {m n : ℕ} (g : Grid m n α) : Grid (m - 1) (n - 1) α := fun i j => g ⟨i, by omega⟩ ⟨j, by omega⟩

/-- The length of an axis after numpy broadcasting of lengths `m` and `n` (meaningful if they are compatible: equal, or one of them 1). -/
def bdim (m n : ℕ) : ℕ := if m = 1 then n else m

/-- Two axis lengths can be broadcast together. -/
def BCompat (m n : ℕ) : Prop := m = n ∨ m = 1 ∨ n = 1

instance (m n : ℕ) : Decidable (BCompat m n) := by unfold BCompat; infer_instance

/-- Index into the left operand. -/
def bleft {m n : ℕ} (k : Fin (bdim m n)) : Fin m := if h : m = 1 then ⟨0, by omega⟩ else ⟨k, by have h1 := k.2; have h2 : bdim m n = m := if_neg h; omega⟩

/-- Index into the right operand. -/
def bright {m n : ℕ} (hc : BCompat m n) (k : Fin (bdim m n)) : Fin n :=
  if h : n = 1 then ⟨0, by omega⟩
  else ⟨k, by
    have h1 := k.2
    unfold BCompat at hc
    by_cases hm : m = 1
    · have h2 : bdim m n = n := if_pos hm
      omega
    · have h2 : bdim m n = m := if_neg hm
      omega⟩

/-- Sum over all entries of `f(x, y)` for `x*y`-style broadcasting of two arrays; incompatible shapes raise `ValueError`. -/
noncomputable def bsum {m n p q : ℕ} (f : ℂ → ℂ → ℝ) (x : Grid m n ℂ) (y : Grid p q ℂ) : Except PyErr ℝ :=
  if h : BCompat m p ∧ BCompat n q then
    .ok (∑ i : Fin (bdim m p), ∑ j : Fin (bdim n q), f (x (bleft i) (bleft j)) (y (bright h.1 i) (bright h.2 j)))
  else .error .valueError

namespace Sim
variable {Nx Ny : ℕ}

/-- The index pairs `inds_x`, `inds_y` of `simulation.py:253-260` (and of `mode.py:65-72`), with the axis. -/
noncomputable def probeInds (direction_normal : String) (center : ℤ × ℤ) (width : ℝ) : Except PyErr (Axis × (ℤ × ℤ) × (ℤ × ℤ)) :=
  if direction_normal = "x" then .ok (.x, (center.1, center.1 + 1), (pyInt (center.2 - width / 2), pyInt (center.2 + width / 2)))
  else if direction_normal = "y" then .ok (.y, (pyInt (center.1 - width / 2), pyInt (center.1 + width / 2)), (center.2, center.2 + 1))
  else .error .valueError

/-- Subscripting an entry of the field dictionary: `None[...]` raises `TypeError`. -/
def getField (f : Fields Nx Ny) (c : Comp) : Except PyErr (Grid Nx Ny ℂ) :=
  match f c with
  | none => .error .typeError
  | some g => .ok g

/-- `flux_probe(direction_normal, center, width, nl)`, `simulation.py:249-304`, for integer centres.  (The averages along the other axis, computed and not used, cannot fail.) -/
noncomputable def flux_probe (s : Sim Nx Ny) (direction_normal : String) (center : ℤ × ℤ) (width : ℝ) (nl : Bool := false) : Except PyErr ℝ := do
  let (ax, ix, iy) ← probeInds direction_normal center width
  let f := if nl then s.fields_nl else s.fields
  let avg := fun (g : Grid Nx Ny ℂ) => dropLast2 (grid_average (slice2 g ix.1 (ix.2 + 1) iy.1 (iy.2 + 1)) ax)
  match s.pol, ax with
  | .Ez, .x =>
    let Ez ← getField f .Ez
    let Hy ← getField f .Hy
    let S ← bsum (fun e h => -1 / 2 * (e * (starRingEnd ℂ) h).re) (avg Ez) (slice2 Hy ix.1 ix.2 iy.1 iy.2)
    return s.dl * S
  | .Ez, .y =>
    let Ez ← getField f .Ez
    let Hx ← getField f .Hx
    let S ← bsum (fun e h => 1 / 2 * (e * (starRingEnd ℂ) h).re) (avg Ez) (slice2 Hx ix.1 ix.2 iy.1 iy.2)
    return s.dl * S
  | .Hz, .x =>
    let Hz ← getField f .Hz
    let Ey ← getField f .Ey
    let S ← bsum (fun e h => 1 / 2 * (e * (starRingEnd ℂ) h).re) (slice2 Ey ix.1 ix.2 iy.1 iy.2) (avg Hz)
    return s.dl * S
  | .Hz, .y =>
    let Hz ← getField f .Hz
    let Ex ← getField f .Ex
    let S ← bsum (fun e h => -1 / 2 * (e * (starRingEnd ℂ) h).re) (slice2 Ex ix.1 ix.2 iy.1 iy.2) (avg Hz)
    return s.dl * S

end Sim

end Angler
