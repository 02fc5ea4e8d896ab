import Verif.Props.RunLogs

/-! # C40, C41: the design vector during L-BFGS -/

namespace Angler

variable {Nx Ny : ℕ}

/-- Euclidean length of a vector and of a difference of vectors. -/
noncomputable def Spec.len (x : List ℝ) : ℝ := Real.sqrt ((x.map fun a => a ^ 2).sum)
noncomputable def Spec.distance (x y : List ℝ) : ℝ := Real.sqrt (((x.zip y).map fun p => (p.1 - p.2) ^ 2).sum)

theorem distance_eq (x y : List ℝ) : Opt.listNorm (List.zipWith (fun a b => a - b) x y) = Spec.distance x y := by
  unfold Opt.listNorm Spec.distance
  rw [List.map_zipWith, List.zip, List.map_zipWith]

theorem distance_self (x : List ℝ) : Spec.distance x x = 0 := by
  unfold Spec.distance
  have : ((x.zip x).map fun p : ℝ × ℝ => (p.1 - p.2) ^ 2).sum = 0 := by
    induction x with
    | nil => rfl
    | cons a x ih => rw [List.zip_cons_cons, List.map_cons, List.sum_cons, ih]; simp
  rw [this, Real.sqrt_zero]

theorem desIdx_nodup (o : Opt Nx Ny) : (Opt.desIdx o).Nodup := (List.nodup_finRange _).filter _

theorem maskAssign_read {n : ℕ} (ks : List (Fin n)) (hn : ks.Nodup) (xs : List ℝ) (hl : xs.length = ks.length) (v : Vec n ℝ) : ks.map (Opt.maskAssign ks xs v) = xs := by
  induction ks generalizing xs v with
  | nil =>
    cases xs with
    | nil => rfl
    | cons => simp at hl
  | cons k ks ih =>
    cases xs with
    | nil => simp at hl
    | cons a xs =>
      rw [List.nodup_cons] at hn
      have hk : Opt.maskAssign (k :: ks) (a :: xs) v k = a := by
        rw [Opt.maskAssign, maskAssign_other _ _ _ _ hn.1, Function.update_self]
      rw [List.map_cons, hk]
      congr 1
      exact ih hn.2 xs (by simpa using hl) _

/-- The comparison in `_set_design_region` (line 386), without the division. -/
theorem relative_gt {d l : ℝ} (hd0 : 0 ≤ d) (hl0 : 0 ≤ l) : (PyFloat.div d l).Gt 1e-10 ↔ 1e-10 * l < d := by
  unfold PyFloat.div
  by_cases hz : l = 0
  · rw [if_neg (not_not.2 hz)]
    rcases hd0.lt_or_eq with hpos | h0
    · rw [if_pos hpos, hz, mul_zero]
      exact ⟨fun _ => hpos, fun _ => trivial⟩
    · rw [← h0, if_neg (lt_irrefl _), if_neg (lt_irrefl _), hz, mul_zero]
      exact ⟨fun h => h.elim, fun h => absurd h (lt_irrefl _)⟩
  · rw [if_pos hz]
    exact lt_div_iff₀ (lt_of_le_of_ne hl0 (Ne.symm hz))

theorem get_design_length (o : Opt Nx Ny) (rho : Grid Nx Ny ℝ) : (Opt.get_design_region o rho).length = (Opt.desIdx o).length := by
  rw [Opt.get_design_region, List.length_map]

/-- The two outcomes of `_set_design_region`. -/
theorem set_design_region_cases (o : Opt Nx Ny) (rho : Grid Nx Ny ℝ) (hr : o.simulation.rho = some (some rho)) (x : List ℝ) (hx : x.length = (Opt.desIdx o).length) :
    (Opt.set_design_region o x = (.ok (), { o with fields_current := false }) ∧ Spec.distance x (Opt.get_design_region o rho) ≤ 1e-10 * Spec.len x) ∨
    (Opt.set_design_region o x = (.ok (), { Opt.putRho o (unflatten (Opt.maskAssign (Opt.desIdx o) x (flatten rho))) with fields_current := false }) ∧
      1e-10 * Spec.len x < Spec.distance x (Opt.get_design_region o rho)) := by
  have hl : x.length = (Opt.get_design_region o rho).length := by rw [hx, get_design_length]
  have hgt := relative_gt (d := Spec.distance x (Opt.get_design_region o rho)) (l := Spec.len x) (Real.sqrt_nonneg _) (Real.sqrt_nonneg _)
  unfold Opt.set_design_region
  rw [hr]
  simp only [Opt.bcastSub, Opt.maskValues, if_pos hl]
  rw [distance_eq, show Opt.listNorm x = Spec.len x from rfl]
  by_cases h : (PyFloat.div (Spec.distance x (Opt.get_design_region o rho)) (Spec.len x)).Gt 1e-10
  · rw [if_pos h]
    exact Or.inr ⟨rfl, hgt.1 h⟩
  · rw [if_neg h]
    exact Or.inl ⟨rfl, not_lt.1 fun hc => h (hgt.2 hc)⟩

/-- **C40.** For every design region, density and vector with one entry per design pixel: `_set_design_region(x)` returns, the vector read back is `x` up to the relative
tolerance `1e-10` (exactly `x` when it differs from the old vector by more than that), and densities off the design pixels are unchanged. -/
theorem C40_get_set (o : Opt Nx Ny) (rho : Grid Nx Ny ℝ) (hr : o.simulation.rho = some (some rho)) (x : List ℝ) (hx : x.length = (Opt.desIdx o).length) :
    ∃ o' rho', Opt.set_design_region o x = (.ok (), o') ∧ o'.simulation.rho = some (some rho') ∧ o'.design_region = o.design_region ∧
      Spec.distance x (Opt.get_design_region o' rho') ≤ 1e-10 * Spec.len x ∧
      (1e-10 * Spec.len x < Spec.distance x (Opt.get_design_region o rho) → Opt.get_design_region o' rho' = x) ∧
      ∀ i j, o.design_region i j ≠ 1 → rho' i j = rho i j := by
  have hl0 : 0 ≤ Spec.len x := Real.sqrt_nonneg _
  rcases set_design_region_cases o rho hr x hx with ⟨h, hd⟩ | ⟨h, hd⟩
  · exact ⟨_, rho, h, hr, rfl, hd, fun hc => absurd hd (not_le.2 hc), fun _ _ _ => rfl⟩
  · have hread : Opt.get_design_region { Opt.putRho o (unflatten (Opt.maskAssign (Opt.desIdx o) x (flatten rho))) with fields_current := false }
        (unflatten (Opt.maskAssign (Opt.desIdx o) x (flatten rho))) = x := by
      unfold Opt.get_design_region
      rw [flatten_unflatten]
      exact maskAssign_read _ (desIdx_nodup o) x hx _
    refine ⟨_, _, h, rfl, rfl, ?_, fun _ => hread, fun i j hij => unflatten_maskAssign_outside o x rho i j hij⟩
    rw [hread, distance_self]
    exact mul_nonneg (by norm_num) hl0

/-- **C40, wrong lengths** are rejected without any change, unless numpy broadcasts: a single value, or a single design pixel. -/
theorem C40_wrong_length (o : Opt Nx Ny) (rho : Grid Nx Ny ℝ) (hr : o.simulation.rho = some (some rho)) (x : List ℝ) (hx : x.length ≠ (Opt.desIdx o).length) (h1 : x.length ≠ 1)
    (hn : (Opt.desIdx o).length ≠ 1) : Opt.set_design_region o x = (.error .valueError, o) := by
  have hl := get_design_length o rho
  have hb : Opt.bcastSub x (Opt.get_design_region o rho) = none := by
    unfold Opt.bcastSub
    rw [if_neg (by rw [hl]; exact hx)]
    split
    · exact absurd rfl h1
    · next hc =>
      rw [hc] at hl
      exact absurd hl.symm hn
    · rfl
  unfold Opt.set_design_region
  rw [hr]
  simp only [hb]

theorem distance_replicate_left (a : ℝ) (y : List ℝ) : Opt.listNorm (y.map fun b => a - b) = Spec.distance (List.replicate y.length a) y := by
  rw [← distance_eq]
  congr 1
  induction y with
  | nil => rfl
  | cons b y ih => rw [List.map_cons, ih]; rfl

theorem distance_replicate_right (c : ℝ) (x : List ℝ) : Opt.listNorm (x.map fun a => a - c) = Spec.distance x (List.replicate x.length c) := by
  rw [← distance_eq]
  congr 1
  induction x with
  | nil => rfl
  | cons b x ih => rw [List.map_cons, ih]; rfl

/-- **C40, a single value** is written to every design pixel, whatever their number (the tolerance is then relative to this value). -/
theorem C40_single_value (o : Opt Nx Ny) (rho : Grid Nx Ny ℝ) (hr : o.simulation.rho = some (some rho)) (a : ℝ) :
    ∃ o' rho', Opt.set_design_region o [a] = (.ok (), o') ∧ o'.simulation.rho = some (some rho') ∧ o'.design_region = o.design_region ∧
      Spec.distance (List.replicate (Opt.desIdx o).length a) (Opt.get_design_region o' rho') ≤ 1e-10 * |a| ∧
      (1e-10 * |a| < Spec.distance (List.replicate (Opt.desIdx o).length a) (Opt.get_design_region o rho) → ∀ i j, o.design_region i j = 1 → rho' i j = a) ∧
      ∀ i j, o.design_region i j ≠ 1 → rho' i j = rho i j := by
  have hl := get_design_length o rho
  have hb : Opt.bcastSub [a] (Opt.get_design_region o rho) = some ((Opt.get_design_region o rho).map fun b => a - b) := by
    unfold Opt.bcastSub
    split_ifs with h
    · rcases hc : Opt.get_design_region o rho with _ | ⟨c, _ | _⟩
      · rw [hc] at h; cases h
      · rfl
      · rw [hc] at h; simp at h
    · rfl
  have hm : Opt.maskValues (Opt.get_design_region o rho).length [a] = some (List.replicate (Opt.desIdx o).length a) := by
    unfold Opt.maskValues
    split_ifs with h
    · rw [← hl, ← h]; rfl
    · rw [hl]
  have hlen : Opt.listNorm [a] = |a| := by
    unfold Opt.listNorm
    rw [List.map_singleton, List.sum_singleton, Real.sqrt_sq_eq_abs]
  have hgt := relative_gt (d := Spec.distance (List.replicate (Opt.desIdx o).length a) (Opt.get_design_region o rho)) (l := |a|) (Real.sqrt_nonneg _) (abs_nonneg a)
  have hset : Opt.set_design_region o [a] = open Classical in if 1e-10 * |a| < Spec.distance (List.replicate (Opt.desIdx o).length a) (Opt.get_design_region o rho) then
      (.ok (), { Opt.putRho o (unflatten (Opt.maskAssign (Opt.desIdx o) (List.replicate (Opt.desIdx o).length a) (flatten rho))) with fields_current := false })
      else (.ok (), { o with fields_current := false }) := by
    unfold Opt.set_design_region
    rw [hr]
    simp only [hb, hm]
    rw [hlen, distance_replicate_left, hl]
    simp only [hgt]
  rw [hset]
  split_ifs with h
  · have hread : Opt.get_design_region { Opt.putRho o (unflatten (Opt.maskAssign (Opt.desIdx o) (List.replicate (Opt.desIdx o).length a) (flatten rho))) with fields_current := false }
        (unflatten (Opt.maskAssign (Opt.desIdx o) (List.replicate (Opt.desIdx o).length a) (flatten rho))) = List.replicate (Opt.desIdx o).length a := by
      unfold Opt.get_design_region
      rw [flatten_unflatten]
      exact maskAssign_read _ (desIdx_nodup o) _ (List.length_replicate ..) _
    refine ⟨_, _, rfl, rfl, rfl, ?_, fun _ i j hij => ?_, fun i j hij => unflatten_maskAssign_outside o _ rho i j hij⟩
    · rw [hread, distance_self]
      exact mul_nonneg (by norm_num) (abs_nonneg a)
    · have hmem : finProdFinEquiv (i, j) ∈ Opt.desIdx o := by rw [mem_desIdx, flatten_pair]; exact hij
      have h2 := List.mem_map_of_mem (f := Opt.maskAssign (Opt.desIdx o) (List.replicate (Opt.desIdx o).length a) (flatten rho)) hmem
      rw [maskAssign_read _ (desIdx_nodup o) _ (List.length_replicate ..) _] at h2
      exact (List.mem_replicate.1 h2).2
  · exact ⟨_, rho, rfl, hr, rfl, not_lt.1 h, fun hc => absurd hc h, fun _ _ _ => rfl⟩

/-- **C40, a single design pixel** of density `c`: a vector of another length than one is rejected if its distance from `c` in every entry exceeds the tolerance; otherwise it passes unnoticed, and
the densities stay as they are. -/
theorem C40_single_pixel (o : Opt Nx Ny) (rho : Grid Nx Ny ℝ) (hr : o.simulation.rho = some (some rho)) (c : ℝ) (hc : Opt.get_design_region o rho = [c]) (x : List ℝ) (hx : x.length ≠ 1) :
    (1e-10 * Spec.len x < Spec.distance x (List.replicate x.length c) → Opt.set_design_region o x = (.error .valueError, o)) ∧
    (Spec.distance x (List.replicate x.length c) ≤ 1e-10 * Spec.len x → Opt.set_design_region o x = (.ok (), { o with fields_current := false })) := by
  have hb : Opt.bcastSub x [c] = some (x.map fun a => a - c) := by
    unfold Opt.bcastSub
    rw [if_neg (by rw [List.length_singleton]; exact hx)]
    split
    · exact absurd rfl hx
    · next h => cases h; rfl
    · next h => exact absurd rfl (h c)
  have hm : Opt.maskValues 1 x = none := by
    unfold Opt.maskValues
    rw [if_neg hx]
    split
    · exact absurd rfl hx
    · rfl
  have hgt := relative_gt (d := Spec.distance x (List.replicate x.length c)) (l := Spec.len x) (Real.sqrt_nonneg _) (Real.sqrt_nonneg _)
  have hset : Opt.set_design_region o x = open Classical in if 1e-10 * Spec.len x < Spec.distance x (List.replicate x.length c) then (.error .valueError, o)
      else (.ok (), { o with fields_current := false }) := by
    unfold Opt.set_design_region
    rw [hr]
    simp only [hc, hb, distance_replicate_right, show Opt.listNorm x = Spec.len x from rfl, List.length_singleton, hm, hgt]
  rw [hset]
  exact ⟨fun h => if_pos h, fun h => if_neg (not_lt.2 h)⟩

theorem lbfgsCalls_design (env : Env) (cs : List Opt.LbfgsCall) (o : Opt Nx Ny) : (Opt.lbfgsCalls env cs o).2.design_region = o.design_region :=
  (CallInv.of_state (env := env) (fun q _ _ => q.design_region = o.design_region) fun q q' r eps hW hd hm he hb h => by rw [hd]; exact h).lbfgsCalls
    (fun q x h => by rcases set_design_region_state q x with hs | hs | ⟨rho, v, _, hs⟩ <;> rw [hs] <;> exact h) cs o rfl

/-- **C40, L-BFGS.** Whatever the optimiser does before, when `run('lbfgs')` returns, the densities at the design pixels are the optimiser's final vector (up to the tolerance); `fmin_l_bfgs_b` returns
a vector as long as its start, which has one entry per design pixel. -/
theorem C40_lbfgs_final (env : Env) (o o' : Opt Nx Ny) (cs : List Opt.LbfgsCall) (x : List ℝ) (hx : x.length = (Opt.desIdx o).length) (hok : Opt.run_LBFGS env cs x o = (.ok (), o')) :
    ∃ rho', o'.simulation.rho = some (some rho') ∧ Spec.distance x (Opt.get_design_region o' rho') ≤ 1e-10 * Spec.len x := by
  obtain ⟨_, o1, h0, h⟩ := pySeq_ok hok
  have hd1 : o1.design_region = o.design_region := by
    have h2 := lbfgsCalls_design env cs o
    rw [h0] at h2
    exact h2
  rcases hr : o1.simulation.rho with _ | _ | rho
  · unfold Opt.set_design_region at h; rw [hr] at h; cases h
  · unfold Opt.set_design_region at h; rw [hr] at h; cases h
  · obtain ⟨o2, rho', h2, hr2, hd, hc, -⟩ := C40_get_set o1 rho hr x (by rw [desIdx_congr hd1]; exact hx)
    rw [h] at h2
    cases h2
    exact ⟨rho', hr2, hc⟩

theorem ropt22_idx : Opt.desIdx (ropt (Nx := 2) (Ny := 2) (fun _ _ => 1) (fun _ _ => 1) (fun _ _ => 0) (fun i _ => if i = 1 then 1 else 0) 1) = [2, 3] := by
  have hfin : List.finRange (2 * 2) = [0, 1, 2, 3] := by decide
  have hval : ∀ k : Fin (2 * 2), flatten (fun (i : Fin 2) (_ : Fin 2) => if i = 1 then (1 : ℝ) else 0) k = if k = 2 ∨ k = 3 then 1 else 0 := by
    intro k
    have : ((finProdFinEquiv.symm k : Fin 2 × Fin 2).1 = 1) ↔ (k = 2 ∨ k = 3) := by revert k; decide
    show (if (finProdFinEquiv.symm k : Fin 2 × Fin 2).1 = 1 then (1 : ℝ) else 0) = _
    by_cases h : (k = 2 ∨ k = 3)
    · rw [if_pos h, if_pos (this.2 h)]
    · rw [if_neg h, if_neg (fun h' => h (this.1 h'))]
  unfold Opt.desIdx
  rw [hfin]
  have : ∀ k : Fin (2 * 2), (flatten (ropt (Nx := 2) (Ny := 2) (fun _ _ => 1) (fun _ _ => 1) (fun _ _ => 0) (fun i _ => if i = 1 then 1 else 0) 1).design_region k = 1) ↔ (k = 2 ∨ k = 3) := by
    intro k
    show flatten (fun (i : Fin 2) (_ : Fin 2) => if i = 1 then (1 : ℝ) else 0) k = 1 ↔ _
    rw [hval]
    by_cases h : (k = 2 ∨ k = 3)
    · simp [h]
    · simp [h]
  simp only [this, List.filter_cons, List.filter_nil]
  rfl

/-- Two design pixels on a 2×2 grid: the vector `[1/2, 1/4]` goes to these two pixels, in order. -/
example : ∃ o' rho', Opt.set_design_region (ropt (Nx := 2) (Ny := 2) (fun _ _ => 1) (fun _ _ => 1) (fun _ _ => 0) (fun i _ => if i = 1 then 1 else 0) 1) [1 / 2, 1 / 4] = (.ok (), o') ∧
    o'.simulation.rho = some (some rho') ∧ Opt.get_design_region o' rho' = [1 / 2, 1 / 4] ∧ rho' 0 0 = 0 := by
  have hidx := ropt22_idx
  obtain ⟨o', rho', h1, h2, -, -, h3, h4⟩ := C40_get_set (ropt (Nx := 2) (Ny := 2) (fun _ _ => 1) (fun _ _ => 1) (fun _ _ => 0) (fun i _ => if i = 1 then 1 else 0) 1)
    (fun _ _ => 0) rfl [1 / 2, 1 / 4] (by rw [hidx]; rfl)
  refine ⟨o', rho', h1, h2, h3 ?_, h4 0 0 ?_⟩
  · unfold Opt.get_design_region
    rw [hidx]
    have e1 : Spec.distance [1 / 2, 1 / 4] (List.map (flatten fun (_ : Fin 2) (_ : Fin 2) => (0 : ℝ)) [2, 3]) = Spec.len [1 / 2, 1 / 4] := by
      unfold Spec.distance Spec.len
      simp [flatten]
    have e2 : 0 < Spec.len [1 / 2, 1 / 4] := by
      unfold Spec.len
      apply Real.sqrt_pos.2
      norm_num
    rw [e1]
    linarith
  · show (if (0 : Fin 2) = 1 then (1 : ℝ) else 0) ≠ 1
    simp

/-- On the same device a vector of length 3 is rejected; the single value `1/2` is written to both design pixels and to no other. -/
example : let o := (ropt (Nx := 2) (Ny := 2) (fun _ _ => 1) (fun _ _ => 1) (fun _ _ => 0) (fun i _ => if i = 1 then 1 else 0) 1)
    Opt.set_design_region o [1, 1, 1] = (.error .valueError, o) ∧
    ∃ o' rho', Opt.set_design_region o [1 / 2] = (.ok (), o') ∧ o'.simulation.rho = some (some rho') ∧ rho' 1 0 = 1 / 2 ∧ rho' 1 1 = 1 / 2 ∧ rho' 0 0 = 0 := by
  intro o
  have hidx : Opt.desIdx o = [2, 3] := ropt22_idx
  refine ⟨C40_wrong_length o (fun _ _ => 0) rfl [1, 1, 1] (by rw [hidx]; decide) (by decide) (by rw [hidx]; decide), ?_⟩
  obtain ⟨o', rho', h1, h2, -, -, h3, h4⟩ := C40_single_value o (fun _ _ => 0) rfl (1 / 2)
  have hd : 1e-10 * |(1 / 2 : ℝ)| < Spec.distance (List.replicate (Opt.desIdx o).length (1 / 2)) (Opt.get_design_region o fun _ _ => 0) := by
    unfold Opt.get_design_region Spec.distance
    rw [hidx]
    apply Real.lt_sqrt_of_sq_lt
    rw [abs_of_pos (by norm_num)]
    simp [flatten]
    norm_num
  exact ⟨o', rho', h1, h2, h3 hd 1 0 (by show (if (1 : Fin 2) = 1 then (1 : ℝ) else 0) = 1; simp), h3 hd 1 1 (by show (if (1 : Fin 2) = 1 then (1 : ℝ) else 0) = 1; simp), h4 0 0 (by show (if (0 : Fin 2) = 1 then (1 : ℝ) else 0) ≠ 1; simp)⟩

/-- One design pixel of density 0: the vector `[1, 1]` is rejected, the vector `[0, 0]` and the empty vector pass unnoticed. -/
example : let o := ropt (Nx := 1) (Ny := 1) (fun _ _ => 1) (fun _ _ => 1) (fun _ _ => 0) (fun _ _ => 1) 1
    Opt.set_design_region o [1, 1] = (.error .valueError, o) ∧ (Opt.set_design_region o [0, 0]).1 = .ok () ∧ (Opt.set_design_region o []).1 = .ok () := by
  intro o
  have hget : Opt.get_design_region o (fun _ _ => 0) = [0] := by
    have hi : Opt.desIdx o = [0] := by
      unfold Opt.desIdx
      rw [show List.finRange (1 * 1) = [0] from rfl, List.filter_cons, if_pos (by simp [o, ropt, gopt, flatten]), List.filter_nil]
    unfold Opt.get_design_region
    rw [hi]
    rfl
  refine ⟨(C40_single_pixel o (fun _ _ => 0) rfl 0 hget [1, 1] (by decide)).1 ?_, ?_, ?_⟩
  · unfold Spec.distance Spec.len
    have h2 : (0 : ℝ) < Real.sqrt 2 := Real.sqrt_pos.2 (by norm_num)
    have e1 : ((([1, 1] : List ℝ).zip (List.replicate [(1 : ℝ), 1].length 0)).map fun p : ℝ × ℝ => (p.1 - p.2) ^ 2).sum = 2 := by
      rw [show ([1, 1] : List ℝ).zip (List.replicate [(1 : ℝ), 1].length 0) = [((1 : ℝ), (0 : ℝ)), (1, 0)] from rfl]
      norm_num
    have e2 : (([1, 1] : List ℝ).map fun a => a ^ 2).sum = 2 := by norm_num
    rw [e1, e2]
    linarith
  · rw [(C40_single_pixel o (fun _ _ => 0) rfl 0 hget [0, 0] (by decide)).2 (by simp [Spec.distance, Spec.len])]
  · rw [(C40_single_pixel o (fun _ _ => 0) rfl 0 hget [] (by decide)).2 (by simp [Spec.distance, Spec.len])]

/-! ## C41 -/

/-- The permittivity is the image of the density. -/
def Spec.EpsOfRho (o : Opt Nx Ny) : Prop :=
  ∃ rho, o.simulation.rho = some (some rho) ∧ ∀ i j, o.simulation.eps_r i j = ((rhob2eps (rhot2rhob (rho2rhot rho o.W i j) o.eta o.beta) o.eps_m : ℝ) : ℂ)

theorem epsOfRho_call (env : Env) : CallInv env (Spec.EpsOfRho (Nx := Nx) (Ny := Ny)) :=
  CallInv.of_state (env := env) (fun o r e => ∃ rho, r = some (some rho) ∧ ∀ i j, e i j = ((rhob2eps (rhot2rhob (rho2rhot rho o.W i j) o.eta o.beta) o.eps_m : ℝ) : ℂ))
    fun o o' r e hW _ hm he hb h => by
      rw [hW, hm, he, hb]
      exact h

theorem epsOfRho_putRho (o : Opt Nx Ny) (rho : Grid Nx Ny ℝ) : Spec.EpsOfRho { Opt.putRho o rho with fields_current := false } := ⟨rho, rfl, fun _ _ => rfl⟩

theorem epsOfRho_set (o : Opt Nx Ny) (x : List ℝ) (h : Spec.EpsOfRho o) : Spec.EpsOfRho (Opt.set_design_region o x).2 := by
  rcases set_design_region_state o x with hs | hs | ⟨rho, v, _, hs⟩ <;> rw [hs]
  · exact h
  · exact h
  · exact epsOfRho_putRho o _

/-- **C41 (partial).** If the permittivity is the image of the density before the run, then it is after every sequence of callbacks `cs`, in particular whenever the
objective or the gradient is evaluated (after one more `_set_design_region(x)`), and at the end.  Missing: other starting states, where the claim fails at the first
evaluation (`C41_stale_start`). -/
theorem C41_consistent_partial (env : Env) (o : Opt Nx Ny) (h : Spec.EpsOfRho o) (cs : List Opt.LbfgsCall) (x : List ℝ) :
    Spec.EpsOfRho (Opt.lbfgsCalls env cs o).2 ∧ Spec.EpsOfRho (Opt.set_design_region (Opt.lbfgsCalls env cs o).2 x).2 ∧ Spec.EpsOfRho (Opt.run_LBFGS env cs x o).2 := by
  have h1 := (epsOfRho_call env).lbfgsCalls epsOfRho_set cs o h
  exact ⟨h1, epsOfRho_set _ x h1, (epsOfRho_call env).run_LBFGS epsOfRho_set cs x o h⟩

/-- **C41 (partial), from any start**: as soon as a vector that differs from the present one by more than the tolerance has been set, and ever after. -/
theorem C41_after_move_partial (env : Env) (o : Opt Nx Ny) (rho : Grid Nx Ny ℝ) (hr : o.simulation.rho = some (some rho)) (y : List ℝ) (hy : y.length = (Opt.desIdx o).length)
    (hmove : 1e-10 * Spec.len y < Spec.distance y (Opt.get_design_region o rho)) (cs : List Opt.LbfgsCall) (x : List ℝ) :
    Spec.EpsOfRho (Opt.set_design_region (Opt.lbfgsCalls env cs (Opt.set_design_region o y).2).2 x).2 := by
  refine (C41_consistent_partial env _ ?_ cs x).2.1
  rcases set_design_region_cases o rho hr y hy with ⟨-, hd⟩ | ⟨h, -⟩
  · exact absurd hd (not_le.2 hmove)
  · rw [h]
    exact epsOfRho_putRho o _

/-- **C41, negation.** `fmin_l_bfgs_b` starts by evaluating the objective at the present densities `rho0` (`optimization.py:308-312`); this leaves any permittivity as it is,
so the objective is evaluated on a permittivity that is not the image of the density whenever the run starts with one. -/
theorem C41_stale_start (o : Opt Nx Ny) (rho : Grid Nx Ny ℝ) (hr : o.simulation.rho = some (some rho)) (h : ¬ Spec.EpsOfRho o) :
    Opt.set_design_region o (Opt.get_design_region o rho) = (.ok (), { o with fields_current := false }) ∧
    ¬ Spec.EpsOfRho (Opt.set_design_region o (Opt.get_design_region o rho)).2 := by
  rcases set_design_region_cases o rho hr (Opt.get_design_region o rho) (by rw [Opt.get_design_region, List.length_map]) with ⟨h1, -⟩ | ⟨-, h1⟩
  · refine ⟨h1, ?_⟩
    rw [h1]
    exact h
  · rw [distance_self] at h1
    exact absurd h1 (not_lt.2 (mul_nonneg (by norm_num) (Real.sqrt_nonneg _)))

/-- Both kinds of start exist: air is the image of density 0; a block of material (12) with density 1 and `eps_m = 5` is not. -/
example : Spec.EpsOfRho (ropt (Nx := 3) (Ny := 3) (fun _ _ => 1) (fun _ _ => 1) (fun _ _ => 0) (fun _ _ => 1) 1) ∧
    ¬ Spec.EpsOfRho (ropt (Nx := 3) (Ny := 3) (fun _ _ => 1) (fun _ _ => 12) (fun _ _ => 1) (fun _ _ => 1) 1) := by
  have hC := C01_projection_physical (1 / 2) 1 (by norm_num)
  constructor
  · refine ⟨_, rfl, fun i j => ?_⟩
    show (1 : ℂ) = ((rhob2eps (rhot2rhob (rho2rhot (fun _ _ => 0) (1 : Mat (3 * 3) ℝ) i j) (1 / 2) 1) 5 : ℝ) : ℂ)
    rw [rho2rhot_one, hC.1, rhob2eps]
    simp
  · rintro ⟨rho, hr, h⟩
    have hrho : rho = fun _ _ => 1 := by
      have : some (some (fun (_ : Fin 3) (_ : Fin 3) => (1 : ℝ))) = some (some rho) := hr
      simpa using this.symm
    have h0 := h 0 0
    rw [hrho] at h0
    have h1 : (12 : ℂ) = ((rhob2eps (rhot2rhob (rho2rhot (fun _ _ => 1) (1 : Mat (3 * 3) ℝ) 0 0) (1 / 2) 1) 5 : ℝ) : ℂ) := h0
    rw [rho2rhot_one, hC.2.1, rhob2eps] at h1
    have : (12 : ℝ) = (5 - 1) * 1 + 1 := by exact_mod_cast h1
    norm_num at this

end Angler
