import Verif.Props.Maxwell
import Verif.Props.Flux
import Verif.Lemmas.CoarseSim

/-! # C61 (power balance), C62 (the flux probe and the power balance) -/

namespace Angler

open Finset

variable {Nx Ny : ℕ}

/-! ## Specification -/

/-- Power per length through the face between cell `i` and the previous cell along `x`, Ez polarisation: `Hy i` lives on that face, `Ez` is averaged over the two cells. -/
noncomputable def Spec.faceXEz (Ez Hy : Grid Nx Ny ℂ) (i : Fin Nx) (j : Fin Ny) : ℝ := Spec.Sx 0 ((Ez (Spec.prev i) j + Ez i j) / 2) (Hy i j) 0
/-- The same along `y`. -/
noncomputable def Spec.faceYEz (Ez Hx : Grid Nx Ny ℂ) (i : Fin Nx) (j : Fin Ny) : ℝ := Spec.Sy 0 ((Ez i (Spec.prev j) + Ez i j) / 2) (Hx i j) 0
/-- Hz polarisation. -/
noncomputable def Spec.faceXHz (Hz Ey : Grid Nx Ny ℂ) (i : Fin Nx) (j : Fin Ny) : ℝ := Spec.Sx (Ey i j) 0 0 ((Hz (Spec.prev i) j + Hz i j) / 2)
/-- Hz polarisation. -/
noncomputable def Spec.faceYHz (Hz Ex : Grid Nx Ny ℂ) (i : Fin Nx) (j : Fin Ny) : ℝ := Spec.Sy (Ex i j) 0 0 ((Hz i (Spec.prev j) + Hz i j) / 2)

/-- Time-averaged power density delivered by a source `c` to a field `f` (`-½ Re (c* f)`). -/
noncomputable def Spec.supplied (c f : ℂ) : ℝ := -((starRingEnd ℂ) c * f).re / 2

/-- Time-averaged power density absorbed by a material of permittivity `eps`, fields varying as `exp(+iωt)` (positive for `Im eps < 0`). -/
noncomputable def Spec.absorbed (omega : ℝ) (eps f : ℂ) : ℝ := -(omega * eps.im * ‖f‖ ^ 2) / 2

/-- Power flowing out of the rectangle of cells `a ≤ i < b`, `c ≤ j < d`, given the power per length through the faces. -/
noncomputable def Spec.outflow (h : ℝ) (FX FY : Grid Nx Ny ℝ) (a b : Fin Nx) (c d : Fin Ny) : ℝ :=
  h * ∑ j with c ≤ j ∧ j < d, (FX b j - FX a j) + h * ∑ i with a ≤ i ∧ i < b, (FY i d - FY i c)

/-! ## Sums over a rectangle -/

theorem next_val {n : ℕ} {i b : Fin n} (h : i < b) : (Spec.next i).val = i.val + 1 := by
  have h1 : i.val < b.val := h
  have := b.2
  show (i.val + 1) % n = _
  rw [Nat.mod_eq_of_lt (by omega)]

theorem telescope {n : ℕ} (F : Fin n → ℝ) {a b : Fin n} (hab : a ≤ b) : ∑ i with a ≤ i ∧ i < b, (F (Spec.next i) - F i) = F b - F a := by
  set G : ℕ → ℝ := fun k => if h : k < n then F ⟨k, h⟩ else 0 with hG
  have hGF : ∀ i : Fin n, G i = F i := fun i => by simp only [hG, dif_pos i.2]
  have h1 : ∑ i with a ≤ i ∧ i < b, (F (Spec.next i) - F i) = ∑ i with a.val ≤ (i : Fin n).val ∧ i.val < b.val, (G (i.val + 1) - G i.val) := by
    refine sum_congr rfl fun i hi => ?_
    rw [mem_filter] at hi
    rw [hGF, ← next_val hi.2.2, hGF]
  rw [h1, ← sum_filter_nat (fun k => G (k + 1) - G k) (fun i => G (i.val + 1) - G i.val) (fun _ => rfl) a b b.2.le]
  have hs := Finset.sum_range_sub (fun k => G (a.val + k)) (b.val - a.val)
  have hab' : a.val ≤ b.val := hab
  rw [add_zero, show a.val + (b.val - a.val) = b.val by omega, hGF, hGF] at hs
  exact hs

theorem rect_sum (h : ℝ) (FX FY D : Grid Nx Ny ℝ) {a b : Fin Nx} {c d : Fin Ny} (hab : a ≤ b) (hcd : c ≤ d)
    (hcell : ∀ i j, a ≤ i → i < b → c ≤ j → j < d → h * (FX (Spec.next i) j - FX i j) + h * (FY i (Spec.next j) - FY i j) = h ^ 2 * D i j) :
    Spec.outflow h FX FY a b c d = h ^ 2 * ∑ i with a ≤ i ∧ i < b, ∑ j with c ≤ j ∧ j < d, D i j := by
  have e1 : ∑ j with c ≤ j ∧ j < d, (FX b j - FX a j) = ∑ i with a ≤ i ∧ i < b, ∑ j with c ≤ j ∧ j < d, (FX (Spec.next i) j - FX i j) := by
    rw [sum_comm]
    exact sum_congr rfl fun j _ => (telescope (fun i => FX i j) hab).symm
  have e2 : ∑ i with a ≤ i ∧ i < b, (FY i d - FY i c) = ∑ i with a ≤ i ∧ i < b, ∑ j with c ≤ j ∧ j < d, (FY i (Spec.next j) - FY i j) :=
    sum_congr rfl fun i _ => (telescope (fun j => FY i j) hcd).symm
  unfold Spec.outflow
  rw [e1, e2]
  simp only [mul_sum, ← sum_add_distrib]
  refine sum_congr rfl fun i hi => sum_congr rfl fun j hj => ?_
  rw [mem_filter] at hi hj
  exact hcell i j hi.2.1 hi.2.2 hj.2.1 hj.2.2

/-! ## One cell -/

theorem cell_Ez {omega mu h : ℝ} (hh : 0 < h) {sxf sxb : Fin Nx → ℂ} {syf syb : Fin Ny → ℂ} {eps src Hx Hy Ez : Grid Nx Ny ℂ} (hM : Spec.MaxwellEz omega mu h sxf sxb syf syb eps src Hx Hy Ez)
    (i : Fin Nx) (j : Fin Ny) (h1 : sxf i = 1) (h2 : sxb i = 1) (h3 : sxb (Spec.next i) = 1) (h4 : syf j = 1) (h5 : syb j = 1) (h6 : syb (Spec.next j) = 1) :
    h * (Spec.faceXEz Ez Hy (Spec.next i) j - Spec.faceXEz Ez Hy i j) + h * (Spec.faceYEz Ez Hx i (Spec.next j) - Spec.faceYEz Ez Hx i j) =
      h ^ 2 * (Spec.supplied (src i j) (Ez i j) - Spec.absorbed omega (eps i j) (Ez i j)) := by
  have hc : (h : ℂ) ≠ 0 := by exact_mod_cast hh.ne'
  obtain ⟨m1, m2, m3⟩ := hM i j
  have m4 := (hM (Spec.next i) j).2.1
  have m5 := (hM i (Spec.next j)).1
  simp only [Spec.bwdX, Spec.bwdY, Spec.fwdX, Spec.fwdY, prev_next, h1, h2, h3, h4, h5, h6, div_one] at m1 m2 m3 m4 m5
  have n1 : Ez i (Spec.prev j) = Ez i j + Complex.I * omega * mu * Hx i j * h := by rw [m1]; field_simp; ring
  have n2 : Ez (Spec.prev i) j = Ez i j - Complex.I * omega * mu * Hy i j * h := by rw [m2]; field_simp; ring
  have n4 : Ez (Spec.next i) j = Ez i j + Complex.I * omega * mu * Hy (Spec.next i) j * h := by rw [m4]; field_simp; ring
  have n5 : Ez i (Spec.next j) = Ez i j - Complex.I * omega * mu * Hx i (Spec.next j) * h := by rw [m5]; field_simp; ring
  have n3 : Hy (Spec.next i) j = Hy i j + Hx i (Spec.next j) - Hx i j + h * (src i j + Complex.I * omega * eps i j * Ez i j) := by rw [← m3]; field_simp; ring
  simp only [Spec.faceXEz, Spec.faceYEz, prev_next, Spec.Sx, Spec.Sy, Spec.supplied, Spec.absorbed, n1, n2, n4, n5]
  rw [n3, ← Complex.normSq_eq_norm_sq, Complex.normSq_apply]
  generalize Ez i j = E
  generalize Hx i j = P
  generalize Hy i j = Q
  generalize Hx i (Spec.next j) = P'
  generalize src i j = c
  generalize eps i j = e
  have half : ∀ z : ℂ, (z / 2).re = z.re / 2 ∧ (z / 2).im = z.im / 2 := fun z => by
    rw [show (2 : ℂ) = ((2 : ℝ) : ℂ) by norm_num]
    exact ⟨Complex.div_ofReal_re _ _, Complex.div_ofReal_im _ _⟩
  simp only [zero_mul, zero_sub, sub_zero, Complex.neg_re, Complex.mul_re, Complex.mul_im, Complex.add_re, Complex.add_im, Complex.sub_re, Complex.sub_im, Complex.conj_re, Complex.conj_im,
    Complex.I_re, Complex.I_im, Complex.ofReal_re, Complex.ofReal_im, (half _).1, (half _).2]
  ring

theorem cell_Hz {omega mu h : ℝ} (hh : 0 < h) {sxf sxb : Fin Nx → ℂ} {syf syb : Fin Ny → ℂ} {epsx epsy src Ex Ey Hz : Grid Nx Ny ℂ}
    (hM : Spec.MaxwellHz omega mu h sxf sxb syf syb epsx epsy src Ex Ey Hz)
    (i : Fin Nx) (j : Fin Ny) (h1 : sxf i = 1) (h2 : sxb i = 1) (h3 : sxb (Spec.next i) = 1) (h4 : syf j = 1) (h5 : syb j = 1) (h6 : syb (Spec.next j) = 1) :
    h * (Spec.faceXHz Hz Ey (Spec.next i) j - Spec.faceXHz Hz Ey i j) + h * (Spec.faceYHz Hz Ex i (Spec.next j) - Spec.faceYHz Hz Ex i j) =
      h ^ 2 * (Spec.supplied (src i j) (Hz i j) - (Spec.absorbed omega (epsx i j) (Ey i j) + Spec.absorbed omega (epsx (Spec.next i) j) (Ey (Spec.next i) j)
        + Spec.absorbed omega (epsy i j) (Ex i j) + Spec.absorbed omega (epsy i (Spec.next j)) (Ex i (Spec.next j))) / 2) := by
  have hc : (h : ℂ) ≠ 0 := by exact_mod_cast hh.ne'
  obtain ⟨m1, m2, m3⟩ := hM i j
  have m4 := (hM (Spec.next i) j).2.1
  have m5 := (hM i (Spec.next j)).1
  simp only [Spec.bwdX, Spec.bwdY, Spec.fwdX, Spec.fwdY, prev_next, h1, h2, h3, h4, h5, h6, div_one] at m1 m2 m3 m4 m5
  have n1 : Hz i (Spec.prev j) = Hz i j - Complex.I * omega * epsy i j * Ex i j * h := by rw [m1]; field_simp; ring
  have n2 : Hz (Spec.prev i) j = Hz i j + Complex.I * omega * epsx i j * Ey i j * h := by rw [m2]; field_simp; ring
  have n4 : Hz (Spec.next i) j = Hz i j - Complex.I * omega * epsx (Spec.next i) j * Ey (Spec.next i) j * h := by rw [m4]; field_simp; ring
  have n5 : Hz i (Spec.next j) = Hz i j + Complex.I * omega * epsy i (Spec.next j) * Ex i (Spec.next j) * h := by rw [m5]; field_simp; ring
  have n3 : src i j * h = Ex i (Spec.next j) - Ex i j - (Ey (Spec.next i) j - Ey i j) - Complex.I * omega * mu * Hz i j * h := by rw [← m3]; field_simp
  have n3' : src i j = (Ex i (Spec.next j) - Ex i j - (Ey (Spec.next i) j - Ey i j)) / h - Complex.I * omega * mu * Hz i j := by
    rw [← m3]
    field_simp
  simp only [Spec.faceXHz, Spec.faceYHz, prev_next, Spec.Sx, Spec.Sy, Spec.supplied, Spec.absorbed, n1, n2, n4, n5]
  rw [n3']
  simp only [← Complex.normSq_eq_norm_sq, Complex.normSq_apply]
  generalize Hz i j = H
  generalize Ex i j = P
  generalize Ey i j = Q
  generalize Ex i (Spec.next j) = P'
  generalize Ey (Spec.next i) j = Q'
  generalize epsx i j = e1
  generalize epsx (Spec.next i) j = e2
  generalize epsy i j = e3
  generalize epsy i (Spec.next j) = e4
  have half : ∀ z : ℂ, (z / 2).re = z.re / 2 ∧ (z / 2).im = z.im / 2 := fun z => by
    rw [show (2 : ℂ) = ((2 : ℝ) : ℂ) by norm_num]
    exact ⟨Complex.div_ofReal_re _ _, Complex.div_ofReal_im _ _⟩
  have hne := hh.ne'
  simp only [zero_mul, zero_sub, sub_zero, Complex.neg_re, Complex.mul_re, Complex.mul_im, Complex.add_re, Complex.add_im, Complex.sub_re, Complex.sub_im, Complex.conj_re, Complex.conj_im,
    Complex.I_re, Complex.I_im, Complex.ofReal_re, Complex.ofReal_im, (half _).1, (half _).2, Complex.div_ofReal_re, Complex.div_ofReal_im]
  field_simp
  ring

/-! ## C61 -/

/-- The cells (and the faces around them) of the ranges `a..b` of one axis are outside the absorbing layers. -/
def Spec.RangeOutside (N P : ℕ) (a b : Fin N) : Prop := ∀ i : Fin N, a ≤ i → i ≤ b → Spec.OutsideAxis N P i

theorem next_le {n : ℕ} {i b : Fin n} (h : i < b) : Spec.next i ≤ b := by
  show (Spec.next i).val ≤ b.val
  rw [next_val h]
  exact h

/-- **C61, Ez.** Power balance of the fields returned by a linear solve: for every rectangle of cells outside the absorbing layers, the power flowing out through its sides (electric
field averaged over the two cells adjacent to a face, times the magnetic field on the face) is the power delivered by the source inside minus the power absorbed inside. -/
theorem C61_power_balance_Ez (env : Env) (he : env.Exact) (s : Sim Nx Ny) (hv : s.Valid) (hd : 0 < s.dl) (hp : s.pol = .Ez) (hx : 1 < Nx) (hy : 1 < Ny)
    (hdet : s.A.det ≠ 0 ∨ s.src = 0) (avg : Bool) (a b : Fin Nx) (c d : Fin Ny) (hab : a ≤ b) (hcd : c ≤ d) (ox : Spec.RangeOutside Nx s.NPML.1 a b) (oy : Spec.RangeOutside Ny s.NPML.2 c d) :
    ∃ Hx Hy Ez, (s.solve_fields env false avg).1 = .ok (Hx, Hy, Ez) ∧
      Spec.outflow s.dl (Spec.faceXEz Ez Hy) (Spec.faceYEz Ez Hx) a b c d =
        s.dl ^ 2 * ∑ i with a ≤ i ∧ i < b, ∑ j with c ≤ j ∧ j < d, (Spec.supplied (s.src i j) (Ez i j) - Spec.absorbed s.omega ((EPSILON_0 * s.L0 : ℝ) * s.eps_r i j) (Ez i j)) := by
  obtain ⟨Hx, Hy, Ez, h0, hM⟩ := C13_maxwell_Ez env he s hv hd hp hx hy hdet avg
  refine ⟨Hx, Hy, Ez, h0, rect_sum _ _ _ _ hab hcd fun i j h1 h2 h3 h4 => ?_⟩
  have rx : ((0, Nx * s.dl) : ℝ × ℝ).1 < (0, Nx * s.dl).2 := mul_pos (by exact_mod_cast (by omega : 0 < Nx)) hd
  have ry : ((0, Ny * s.dl) : ℝ × ℝ).1 < (0, Ny * s.dl).2 := mul_pos (by exact_mod_cast (by omega : 0 < Ny)) hd
  have fx := fun (dir : Dir) (k : Fin Nx) (hk : a ≤ k ∧ k ≤ b) => sfactor_outside rx hv.L0_pos hv.omega_pos dir k (ox k hk.1 hk.2)
  have fy := fun (dir : Dir) (k : Fin Ny) (hk : c ≤ k ∧ k ≤ d) => sfactor_outside ry hv.L0_pos hv.omega_pos dir k (oy k hk.1 hk.2)
  have ni : a ≤ Spec.next i := h1.trans (by show i.val ≤ (Spec.next i).val; rw [next_val h2]; omega)
  have nj : c ≤ Spec.next j := h3.trans (by show j.val ≤ (Spec.next j).val; rw [next_val h4]; omega)
  exact cell_Ez hd hM i j (fx _ _ ⟨h1, h2.le⟩) (fx _ _ ⟨h1, h2.le⟩) (fx _ _ ⟨ni, next_le h2⟩) (fy _ _ ⟨h3, h4.le⟩) (fy _ _ ⟨h3, h4.le⟩) (fy _ _ ⟨nj, next_le h4⟩)

/-- **C61, Hz.** The same for Hz with `averaging=True` (or a permittivity that averaging does not change; without it the returned fields are not a solution, `C14_default_averaging_fails`).  Each
in-plane field lives on an edge shared by two cells; half of the power absorbed on it counts for each. -/
theorem C61_power_balance_Hz (env : Env) (he : env.Exact) (s : Sim Nx Ny) (hv : s.Valid) (hd : 0 < s.dl) (hp : s.pol = .Hz) (hx : 1 < Nx) (hy : 1 < Ny)
    (hdet : s.A.det ≠ 0 ∨ s.src = 0) (avg : Bool)
    (havg : avg = true ∨ (Spec.edgeX (EPSILON_0 * s.L0) s.eps_r = (fun i j => ((EPSILON_0 * s.L0 : ℝ) : ℂ) * s.eps_r i j) ∧
      Spec.edgeY (EPSILON_0 * s.L0) s.eps_r = (fun i j => ((EPSILON_0 * s.L0 : ℝ) : ℂ) * s.eps_r i j)))
    (hne : ∀ i j, Spec.edgeX (EPSILON_0 * s.L0) s.eps_r i j ≠ 0 ∧ Spec.edgeY (EPSILON_0 * s.L0) s.eps_r i j ≠ 0)
    (a b : Fin Nx) (c d : Fin Ny) (hab : a ≤ b) (hcd : c ≤ d) (ox : Spec.RangeOutside Nx s.NPML.1 a b) (oy : Spec.RangeOutside Ny s.NPML.2 c d) :
    ∃ Ex Ey Hz, (s.solve_fields env false avg).1 = .ok (Ex, Ey, Hz) ∧
      Spec.outflow s.dl (Spec.faceXHz Hz Ey) (Spec.faceYHz Hz Ex) a b c d =
        s.dl ^ 2 * ∑ i with a ≤ i ∧ i < b, ∑ j with c ≤ j ∧ j < d, (Spec.supplied (s.src i j) (Hz i j)
          - (Spec.absorbed s.omega (Spec.edgeX (EPSILON_0 * s.L0) s.eps_r i j) (Ey i j) + Spec.absorbed s.omega (Spec.edgeX (EPSILON_0 * s.L0) s.eps_r (Spec.next i) j) (Ey (Spec.next i) j)
            + Spec.absorbed s.omega (Spec.edgeY (EPSILON_0 * s.L0) s.eps_r i j) (Ex i j) + Spec.absorbed s.omega (Spec.edgeY (EPSILON_0 * s.L0) s.eps_r i (Spec.next j)) (Ex i (Spec.next j))) / 2) := by
  obtain ⟨Ex, Ey, Hz, h0, hM⟩ := C14_maxwell_Hz_partial env he s hv hd hp hx hy hdet avg havg hne
  refine ⟨Ex, Ey, Hz, h0, rect_sum _ _ _ _ hab hcd fun i j h1 h2 h3 h4 => ?_⟩
  have rx : ((0, Nx * s.dl) : ℝ × ℝ).1 < (0, Nx * s.dl).2 := mul_pos (by exact_mod_cast (by omega : 0 < Nx)) hd
  have ry : ((0, Ny * s.dl) : ℝ × ℝ).1 < (0, Ny * s.dl).2 := mul_pos (by exact_mod_cast (by omega : 0 < Ny)) hd
  have fx := fun (dir : Dir) (k : Fin Nx) (hk : a ≤ k ∧ k ≤ b) => sfactor_outside rx hv.L0_pos hv.omega_pos dir k (ox k hk.1 hk.2)
  have fy := fun (dir : Dir) (k : Fin Ny) (hk : c ≤ k ∧ k ≤ d) => sfactor_outside ry hv.L0_pos hv.omega_pos dir k (oy k hk.1 hk.2)
  have ni : a ≤ Spec.next i := h1.trans (by show i.val ≤ (Spec.next i).val; rw [next_val h2]; omega)
  have nj : c ≤ Spec.next j := h3.trans (by show j.val ≤ (Spec.next j).val; rw [next_val h4]; omega)
  exact cell_Hz hd hM i j (fx _ _ ⟨h1, h2.le⟩) (fx _ _ ⟨h1, h2.le⟩) (fx _ _ ⟨ni, next_le h2⟩) (fy _ _ ⟨h3, h4.le⟩) (fy _ _ ⟨h3, h4.le⟩) (fy _ _ ⟨nj, next_le h4⟩)

/-- Non-vacuity: a rectangle inside a grid with layers of two cells, a lossy material and a point source. -/
example (env : Env) (he : env.Exact) :=
  C61_power_balance_Ez env he (fsim (Nx := 12) (Ny := 12) 2 (fun _ _ => 2 - Complex.I) (Spec.point 5 5)) (fsim_valid _ _ _) (fsim_dl_pos _ _ _) rfl (by norm_num) (by norm_num)
    (Or.inl (fsim_det (by norm_num) (by norm_num) _ _ _ fun _ _ => (by norm_num : (1 : ℝ) ≤ |(2 - Complex.I).re|).trans (Complex.abs_re_le_norm _))) false 4 7 4 7 (by decide) (by decide)
    (fun i h1 h2 => Or.inr ⟨lt_of_lt_of_le (show 2 < 4 by norm_num) (show 4 ≤ i.val from h1), (by have : i.val ≤ 7 := h2; show 2 < 12 - 1 - i.val; omega)⟩)
    (fun i h1 h2 => Or.inr ⟨lt_of_lt_of_le (show 2 < 4 by norm_num) (show 4 ≤ i.val from h1), (by have : i.val ≤ 7 := h2; show 2 < 12 - 1 - i.val; omega)⟩)

/-! ## C62 -/

theorem half_parts (z : ℂ) : (z / 2).re = z.re / 2 ∧ (z / 2).im = z.im / 2 := by
  rw [show (2 : ℂ) = ((2 : ℝ) : ℂ) by norm_num]
  exact ⟨Complex.div_ofReal_re _ _, Complex.div_ofReal_im _ _⟩

/-- Averaging the electric field over the wrong pair of cells: `E2` beyond the face where `H` lives instead of `E0` before it. -/
theorem shifted_average (E0 E1 E2 H H' : ℂ) (k h : ℝ) (e1 : E1 = E0 + Complex.I * k * H * h) (e2 : E2 = E1 + Complex.I * k * H' * h) :
    -(((E1 + E2) / 2) * (starRingEnd ℂ) H).re / 2 = -(((E0 + E1) / 2) * (starRingEnd ℂ) H).re / 2 + k * h / 4 * ((H' - H) * (starRingEnd ℂ) H).im := by
  rw [e2, e1]
  simp only [Complex.mul_re, Complex.mul_im, Complex.add_re, Complex.add_im, Complex.sub_re, Complex.sub_im, Complex.conj_re, Complex.conj_im,
    Complex.I_re, Complex.I_im, Complex.ofReal_re, Complex.ofReal_im, (half_parts _).1, (half_parts _).2]
  ring

/-- **C62 (partial).** Full claim: after a linear Ez solve the probe returns the power through the faces of the line, as in the power balance C61.  Proved: on a line inside the grid and
outside the absorbing layers it returns that power plus, per cell, `ωμ dl²/4 · Im(∂x Hy · Hy*)`: an error of second order in `dl`.  Missing: exactness, which fails (`C62_probe_false`). -/
theorem C62_probe_x_partial (env : Env) (he : env.Exact) (s : Sim Nx Ny) (hv : s.Valid) (hd : 0 < s.dl) (hp : s.pol = .Ez) (hx : 1 < Nx) (hy : 1 < Ny)
    (hdet : s.A.det ≠ 0 ∨ s.src = 0) (avg : Bool) (c yc : ℤ) (w : ℝ) (col col1 : Fin Nx) (h1 : col1.val = col + 1) (a b : ℕ) (hc : Spec.Denotes Nx 1 c col)
    (hs : Spec.Span Ny (pyInt (yc - w / 2)) (pyInt (yc + w / 2)) a b) (ox : Spec.RangeOutside Nx s.NPML.1 col col1) :
    ∃ Hx Hy Ez, (s.solve_fields env false avg).1 = .ok (Hx, Hy, Ez) ∧
      (s.solve_fields env false avg).2.flux_probe "x" (c, yc) w = .ok (s.dl * ∑ j with a ≤ (j : Fin Ny).val ∧ j.val < b,
        (Spec.faceXEz Ez Hy col j + s.omega * (MU_0 * s.L0) * s.dl ^ 2 / 4 * (Spec.fwdX s.dl Hy col j * (starRingEnd ℂ) (Hy col j)).im)) := by
  obtain ⟨Hx, Hy, Ez, h0, hM⟩ := C13_maxwell_Ez env he s hv hd hp hx hy hdet avg
  refine ⟨Hx, Hy, Ez, h0, ?_⟩
  have hst : ((s.solve_fields env false avg).2.fields .Ez = some Ez ∧ (s.solve_fields env false avg).2.fields .Hy = some Hy) ∧ (s.solve_fields env false avg).2.pol = .Ez ∧
      (s.solve_fields env false avg).2.dl = s.dl := by
    simp only [Sim.solve_fields, if_true] at h0 ⊢
    injection h0 with h0
    rw [h0, hp]
    exact ⟨⟨rfl, rfl⟩, rfl, trivial⟩
  obtain ⟨⟨hE, hH⟩, hp', hdl⟩ := hst
  rw [(C51_flux_x_partial (s.solve_fields env false avg).2 false c yc w col col1 h1 a b hc hs _ rfl).1 Ez Hy hp' hE hH, hdl]
  congr 2
  refine sum_congr rfl fun j _ => ?_
  have rx : ((0, Nx * s.dl) : ℝ × ℝ).1 < (0, Nx * s.dl).2 := mul_pos (by exact_mod_cast (by omega : 0 < Nx)) hd
  have hlt : col < col1 := by show col.val < col1.val; omega
  have hnx : Spec.next col = col1 := Fin.ext (by rw [next_val hlt, h1])
  have m1 := (hM col j).2.1
  have m2 := (hM col1 j).2.1
  rw [sfactor_outside rx hv.L0_pos hv.omega_pos _ _ (ox col le_rfl hlt.le), div_one] at m1
  rw [sfactor_outside rx hv.L0_pos hv.omega_pos _ _ (ox col1 hlt.le le_rfl), div_one] at m2
  have hcc : (s.dl : ℂ) ≠ 0 := by exact_mod_cast hd.ne'
  simp only [Spec.bwdX, ← hnx, prev_next] at m1 m2
  rw [← hnx]
  have key := shifted_average (Ez (Spec.prev col) j) (Ez col j) (Ez (Spec.next col) j) (Hy col j) (Hy (Spec.next col) j) (s.omega * (MU_0 * s.L0)) s.dl
    (by push_cast at m1 ⊢; rw [← mul_assoc (Complex.I), m1]; field_simp; ring) (by push_cast at m2 ⊢; rw [← mul_assoc (Complex.I), m2]; field_simp; ring)
  have hf : ∀ z w : ℂ, (z / (s.dl : ℂ) * w).im = (z * w).im / s.dl := fun z w => by
    rw [div_mul_eq_mul_div, Complex.div_ofReal_im]
  simp only [Spec.faceXEz, Spec.Sx, Spec.fwdX, zero_mul, zero_sub, Complex.neg_re, hf]
  rw [key]
  field_simp

/-- **C62 (partial), normal `y`.** -/
theorem C62_probe_y_partial (env : Env) (he : env.Exact) (s : Sim Nx Ny) (hv : s.Valid) (hd : 0 < s.dl) (hp : s.pol = .Ez) (hx : 1 < Nx) (hy : 1 < Ny)
    (hdet : s.A.det ≠ 0 ∨ s.src = 0) (avg : Bool) (xc c : ℤ) (w : ℝ) (row row1 : Fin Ny) (h1 : row1.val = row + 1) (a b : ℕ) (hc : Spec.Denotes Ny 1 c row)
    (hs : Spec.Span Nx (pyInt (xc - w / 2)) (pyInt (xc + w / 2)) a b) (oy : Spec.RangeOutside Ny s.NPML.2 row row1) :
    ∃ Hx Hy Ez, (s.solve_fields env false avg).1 = .ok (Hx, Hy, Ez) ∧
      (s.solve_fields env false avg).2.flux_probe "y" (xc, c) w = .ok (s.dl * ∑ i with a ≤ (i : Fin Nx).val ∧ i.val < b,
        (Spec.faceYEz Ez Hx i row + s.omega * (MU_0 * s.L0) * s.dl ^ 2 / 4 * (Spec.fwdY s.dl Hx i row * (starRingEnd ℂ) (Hx i row)).im)) := by
  obtain ⟨Hx, Hy, Ez, h0, hM⟩ := C13_maxwell_Ez env he s hv hd hp hx hy hdet avg
  refine ⟨Hx, Hy, Ez, h0, ?_⟩
  have hst : ((s.solve_fields env false avg).2.fields .Ez = some Ez ∧ (s.solve_fields env false avg).2.fields .Hx = some Hx) ∧ (s.solve_fields env false avg).2.pol = .Ez ∧
      (s.solve_fields env false avg).2.dl = s.dl := by
    simp only [Sim.solve_fields, if_true] at h0 ⊢
    injection h0 with h0
    rw [h0, hp]
    exact ⟨⟨rfl, rfl⟩, rfl, trivial⟩
  obtain ⟨⟨hE, hH⟩, hp', hdl⟩ := hst
  rw [(C51_flux_y_partial (s.solve_fields env false avg).2 false xc c w row row1 h1 a b hc hs _ rfl).1 Ez Hx hp' hE hH, hdl]
  congr 2
  refine sum_congr rfl fun i _ => ?_
  have ry : ((0, Ny * s.dl) : ℝ × ℝ).1 < (0, Ny * s.dl).2 := mul_pos (by exact_mod_cast (by omega : 0 < Ny)) hd
  have hlt : row < row1 := by show row.val < row1.val; omega
  have hnx : Spec.next row = row1 := Fin.ext (by rw [next_val hlt, h1])
  have m1 := (hM i row).1
  have m2 := (hM i row1).1
  rw [sfactor_outside ry hv.L0_pos hv.omega_pos _ _ (oy row le_rfl hlt.le), div_one] at m1
  rw [sfactor_outside ry hv.L0_pos hv.omega_pos _ _ (oy row1 hlt.le le_rfl), div_one] at m2
  have hcc : (s.dl : ℂ) ≠ 0 := by exact_mod_cast hd.ne'
  simp only [Spec.bwdY, ← hnx, prev_next] at m1 m2
  rw [← hnx]
  have key := shifted_average (Ez i (Spec.prev row)) (Ez i row) (Ez i (Spec.next row)) (-Hx i row) (-Hx i (Spec.next row)) (s.omega * (MU_0 * s.L0)) s.dl
    (by push_cast at m1 ⊢; rw [← mul_assoc (Complex.I), mul_neg, m1]; field_simp; ring) (by push_cast at m2 ⊢; rw [← mul_assoc (Complex.I), mul_neg, m2]; field_simp; ring)
  have hf : ∀ z w : ℂ, (z / (s.dl : ℂ) * w).im = (z * w).im / s.dl := fun z w => by
    rw [div_mul_eq_mul_div, Complex.div_ofReal_im]
  simp only [map_neg, mul_neg, Complex.neg_re, neg_neg, neg_sub_neg] at key
  simp only [Spec.faceYEz, Spec.Sy, Spec.fwdY, zero_mul, sub_zero, hf]
  rw [key, ← neg_sub (Hx i (Spec.next row)) (Hx i row), neg_mul, neg_neg]
  field_simp

/-- The field of the witness, uniform along `y`: a wave crossing from permittivity 1 (column 1) into permittivity 2 (column 2). -/
noncomputable def stepE : Grid 4 3 ℂ := fun i _ => ![1, Complex.I, -1 - 7 * Complex.I, 16 + 111 * Complex.I] i
/-- The permittivity of the witness: lossless. -/
noncomputable def stepEps : Grid 4 3 ℂ := fun i _ => ![1, 1, 2, 1] i
/-- The five-point stencil applied to `stepE`. -/
noncomputable def stepRhs : Grid 4 3 ℂ := fun i j =>
  (stepE (Spec.next i) j + stepE (Spec.prev i) j + stepE i (Spec.next j) + stepE i (Spec.prev j) - 4 * stepE i j) / 9 + stepEps i j * stepE i j
/-- The source that produces the field `stepE`. -/
noncomputable def stepSrc : Grid 4 3 ℂ := fun i j => stepRhs i j / Complex.I
/-- The simulation of the witness. -/
noncomputable def stepSim : Sim 4 3 := fsim 0 stepEps stepSrc

theorem stepSim_det : stepSim.A.det ≠ 0 := fsim_det (by norm_num) (by norm_num) _ _ _ (by
  intro i j
  fin_cases i <;> simp [stepEps])

theorem stepSrc_zero (j : Fin 3) : stepSrc 1 j = 0 ∧ stepSrc 2 j = 0 := by
  have h1 : Spec.next (1 : Fin 4) = 2 := by decide
  have h2 : Spec.prev (1 : Fin 4) = 0 := by decide
  have h3 : Spec.next (2 : Fin 4) = 3 := by decide
  have h4 : Spec.prev (2 : Fin 4) = 1 := by decide
  constructor
  · simp only [stepSrc, stepRhs, h1, h2, stepE, stepEps]
    simp
    ring
  · simp only [stepSrc, stepRhs, h3, h4, stepE, stepEps]
    simp
    ring

theorem stepSim_solve (env : Env) (he : env.Exact) : ∃ Hx, (stepSim.solve_fields env).1 = .ok (Hx, (fun i j => (stepE i j - stepE (Spec.prev i) j) / (3 * Complex.I * ETA_0)), stepE) ∧
    (stepSim.solve_fields env).2.fields .Ez = some stepE ∧
    (stepSim.solve_fields env).2.fields .Hy = some (fun i j => (stepE i j - stepE (Spec.prev i) j) / (3 * Complex.I * ETA_0)) := by
  have hX : solver_direct env stepSim.A stepSim.rhs = flatten stepE := by
    refine solver_direct_unique he stepSim_det ?_
    unfold stepSim
    rw [fsim_apply (by norm_num) (by norm_num)]
    funext k
    show _ = flatten stepSrc k * Complex.I * ((1 : ℝ) : ℂ)
    rw [Complex.ofReal_one, mul_one]
    show stepRhs k.divNat k.modNat = stepRhs k.divNat k.modNat / Complex.I * Complex.I
    rw [div_mul_cancel₀ _ Complex.I_ne_zero]
  have h2 := fsim_Hy (by norm_num : 1 < 4) (by norm_num : 1 < 3) false stepEps stepSrc stepE
  have h3 : stepSim.in_plane false stepSim.eps_r (flatten stepE) = ((stepSim.in_plane false stepEps (flatten stepE)).1, (fun i j => (stepE i j - stepE (Spec.prev i) j) / (3 * Complex.I * ETA_0)), stepE) :=
    Prod.ext rfl h2
  refine ⟨(stepSim.in_plane false stepEps (flatten stepE)).1, ?_⟩
  simp only [Sim.solve_fields, if_true, hX, h3]
  exact ⟨trivial, rfl, rfl⟩

/-- **C62, negation.** A lossless Ez simulation with no source in columns 1 and 2 whose field is uniform along `y`: the power through the left and through the right side of column 1 is the same,
`-1/η₀²`, flowing to the left; the probes at these two columns report different powers of the opposite sign, `7/(2 η₀²)` and `8/η₀²`. -/
theorem C62_probe_false (env : Env) (he : env.Exact) : stepSim.Valid ∧ stepSim.A.det ≠ 0 ∧ (∀ j, stepSim.src 1 j = 0 ∧ stepSim.src 2 j = 0) ∧ (∀ i j, (stepSim.eps_r i j).im = 0) ∧
    ∃ Hx Hy Ez, (stepSim.solve_fields env).1 = .ok (Hx, Hy, Ez) ∧
      stepSim.dl * ∑ j with 0 ≤ (j : Fin 3).val ∧ j.val < 2, Spec.faceXEz Ez Hy 1 j = -1 / ETA_0 ^ 2 ∧
      stepSim.dl * ∑ j with 0 ≤ (j : Fin 3).val ∧ j.val < 2, Spec.faceXEz Ez Hy 2 j = -1 / ETA_0 ^ 2 ∧
      (stepSim.solve_fields env).2.flux_probe "x" (1, 1) 2 = .ok (7 / 2 / ETA_0 ^ 2) ∧
      (stepSim.solve_fields env).2.flux_probe "x" (2, 1) 2 = .ok (8 / ETA_0 ^ 2) := by
  have hE := ETA_0_pos.ne'
  refine ⟨fsim_valid _ _ _, stepSim_det, stepSrc_zero, fun i j => ?_, ?_⟩
  · show (stepEps i j).im = 0
    fin_cases i <;> simp [stepEps]
  obtain ⟨Hx, h0, h1, h2⟩ := stepSim_solve env he
  have hf : (Finset.univ.filter fun j : Fin 3 => 0 ≤ j.val ∧ j.val < 2) = {0, 1} := by decide
  have p1 : Spec.prev (1 : Fin 4) = 0 := by decide
  have p2 : Spec.prev (2 : Fin 4) = 1 := by decide
  have hd : stepSim.dl = 3 / ETA_0 := rfl
  have hyy : ∀ z : ℂ, (z / (3 * Complex.I * ETA_0)) = ((1 / (3 * ETA_0) : ℝ) : ℂ) * (-Complex.I * z) := by
    intro z
    have hEc : (ETA_0 : ℂ) ≠ 0 := by exact_mod_cast hE
    have hI := Complex.I_ne_zero
    push_cast
    field_simp
    rw [Complex.I_sq]
    ring
  have e0 : ∀ j, stepE 0 j = 1 := fun _ => rfl
  have e1 : ∀ j, stepE 1 j = Complex.I := fun _ => rfl
  have e2 : ∀ j, stepE 2 j = -1 - 7 * Complex.I := fun _ => rfl
  have e3 : ∀ j, stepE 3 j = 16 + 111 * Complex.I := fun _ => rfl
  refine ⟨Hx, _, _, h0, ?_, ?_, ?_, ?_⟩
  · rw [hf, Finset.sum_pair (by decide), hd]
    simp only [Spec.faceXEz, Spec.Sx, p1, e0, e1, hyy, zero_mul, zero_sub, map_mul, Complex.conj_ofReal]
    simp only [Complex.neg_re, Complex.mul_re, Complex.mul_im, Complex.add_re, Complex.add_im, Complex.sub_re, Complex.sub_im, Complex.conj_re, Complex.conj_im, Complex.neg_im,
      Complex.I_re, Complex.I_im, Complex.ofReal_re, Complex.ofReal_im, Complex.one_re, Complex.one_im, (half_parts _).1, (half_parts _).2]
    field_simp
    norm_num
  · rw [hf, Finset.sum_pair (by decide), hd]
    simp only [Spec.faceXEz, Spec.Sx, p2, e2, e1, hyy, zero_mul, zero_sub, map_mul, Complex.conj_ofReal]
    simp only [Complex.neg_re, Complex.mul_re, Complex.mul_im, Complex.add_re, Complex.add_im, Complex.sub_re, Complex.sub_im, Complex.conj_re, Complex.conj_im, Complex.neg_im,
      Complex.I_re, Complex.I_im, Complex.ofReal_re, Complex.ofReal_im, Complex.one_re, Complex.one_im, (half_parts _).1, (half_parts _).2]
    field_simp
    norm_num
  · rw [(C51_flux_x_partial (stepSim.solve_fields env).2 false 1 1 2 1 2 rfl 0 2 (Or.inl ⟨rfl, by decide⟩) uniformFlux_span _ rfl).1 _ _ rfl h1 h2]
    congr 1
    rw [hf, Finset.sum_pair (by decide), show (stepSim.solve_fields env).2.dl = 3 / ETA_0 from rfl]
    simp only [Spec.Sx, p1, e0, e1, e2, hyy, zero_mul, zero_sub, map_mul, Complex.conj_ofReal]
    simp only [Complex.neg_re, Complex.mul_re, Complex.mul_im, Complex.add_re, Complex.add_im, Complex.sub_re, Complex.sub_im, Complex.conj_re, Complex.conj_im, Complex.neg_im,
      Complex.I_re, Complex.I_im, Complex.ofReal_re, Complex.ofReal_im, Complex.one_re, Complex.one_im, (half_parts _).1, (half_parts _).2]
    field_simp
    norm_num
  · rw [(C51_flux_x_partial (stepSim.solve_fields env).2 false 2 1 2 2 3 rfl 0 2 (Or.inl ⟨rfl, by decide⟩) uniformFlux_span _ rfl).1 _ _ rfl h1 h2]
    congr 1
    rw [hf, Finset.sum_pair (by decide), show (stepSim.solve_fields env).2.dl = 3 / ETA_0 from rfl]
    simp only [Spec.Sx, p2, e3, e1, e2, hyy, zero_mul, zero_sub, map_mul, Complex.conj_ofReal]
    simp only [Complex.neg_re, Complex.mul_re, Complex.mul_im, Complex.add_re, Complex.add_im, Complex.sub_re, Complex.sub_im, Complex.conj_re, Complex.conj_im, Complex.neg_im,
      Complex.I_re, Complex.I_im, Complex.ofReal_re, Complex.ofReal_im, Complex.one_re, Complex.one_im, (half_parts _).1, (half_parts _).2]
    field_simp
    norm_num

/-- Non-vacuity of C62: a line inside a grid with layers. -/
example (env : Env) (he : env.Exact) :=
  C62_probe_x_partial env he (fsim (Nx := 12) (Ny := 3) 2 (fun _ _ => 2) (Spec.point 5 1)) (fsim_valid _ _ _) (fsim_dl_pos _ _ _) rfl (by norm_num) (by norm_num)
    (Or.inl (fsim_det (by norm_num) (by norm_num) _ _ _ fun _ _ => by norm_num)) false 6 1 2 6 7 rfl 0 2 (Or.inl ⟨rfl, by decide⟩) uniformFlux_span
    (fun i h1 h2 => Or.inr ⟨lt_of_lt_of_le (show 2 < 6 by norm_num) (show 6 ≤ i.val from h1), (by have : i.val ≤ 7 := h2; show 2 < 12 - 1 - i.val; omega)⟩)

end Angler
