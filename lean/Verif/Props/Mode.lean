import Verif.Model.Mode
import Verif.Props.Flux
import Verif.Props.Amplitude
import Mathlib.Tactic.FieldSimp

/-! # C53 (mode sources), C54 (normalisation) -/

namespace Angler

open Finset Matrix

variable {Nx Ny : ℕ}

/-! ## Specification -/

/-- Python's slice `[a:b]` of an axis of length `n` contains position `i`: negative bounds count from the end. -/
def Spec.InSlice (n : ℕ) (a b : ℤ) (i : Fin n) : Prop := (if a < 0 then a + n else a) ≤ (i.val : ℤ) ∧ (i.val : ℤ) < if b < 0 then b + n else b

/-- The line of a mode: one column (row) at the centre, `int(centre ± width/2)` across. -/
def Spec.OnLine (md : Mode) (i : Fin Nx) (j : Fin Ny) : Prop :=
  (md.direction_normal = "x" ∧ Spec.InSlice Nx md.center.1 (md.center.1 + 1) i ∧ Spec.InSlice Ny (pyInt (md.center.2 - md.width / 2)) (pyInt (md.center.2 + md.width / 2)) j) ∨
  (md.direction_normal = "y" ∧ Spec.InSlice Nx (pyInt (md.center.1 - md.width / 2)) (pyInt (md.center.1 + md.width / 2)) i ∧ Spec.InSlice Ny md.center.2 (md.center.2 + 1) j)

open Classical in
/-- `x` overwritten by `v` on `P`. -/
noncomputable def overlay (P : Fin Nx → Fin Ny → Prop) (v x : Grid Nx Ny ℂ) : Grid Nx Ny ℂ := fun i j => if P i j then v i j else x i j

/-! ## The inserted source -/

theorem inSlice_iff (n : ℕ) (a b : ℤ) (i : Fin n) : Spec.InSlice n a b i ↔ sliceIdx n a ≤ i.val ∧ i.val < sliceIdx n b := by
  have := i.2
  unfold Spec.InSlice sliceIdx
  split <;> split <;> omega

theorem probeInds_cases (md : Mode) :
    (md.direction_normal = "x" ∧ Sim.probeInds md.direction_normal md.center md.width =
      .ok (.x, (md.center.1, md.center.1 + 1), (pyInt (md.center.2 - md.width / 2), pyInt (md.center.2 + md.width / 2)))) ∨
    (md.direction_normal = "y" ∧ Sim.probeInds md.direction_normal md.center md.width =
      .ok (.y, (pyInt (md.center.1 - md.width / 2), pyInt (md.center.1 + md.width / 2)), (md.center.2, md.center.2 + 1))) ∨
    (md.direction_normal ≠ "x" ∧ md.direction_normal ≠ "y" ∧ Sim.probeInds md.direction_normal md.center md.width = .error .valueError) := by
  unfold Sim.probeInds
  by_cases h1 : md.direction_normal = "x"
  · exact Or.inl ⟨h1, if_pos h1⟩
  · by_cases h2 : md.direction_normal = "y"
    · exact Or.inr (Or.inl ⟨h2, by rw [if_neg h1, if_pos h2]⟩)
    · exact Or.inr (Or.inr ⟨h1, h2, by rw [if_neg h1, if_neg h2]⟩)

theorem onLine_x (md : Mode) (h : md.direction_normal = "x") (i : Fin Nx) (j : Fin Ny) : Spec.OnLine md i j ↔
    (sliceIdx Nx md.center.1 ≤ i.val ∧ i.val < sliceIdx Nx (md.center.1 + 1)) ∧
      (sliceIdx Ny (pyInt (md.center.2 - md.width / 2)) ≤ j.val ∧ j.val < sliceIdx Ny (pyInt (md.center.2 + md.width / 2))) := by
  unfold Spec.OnLine
  simp only [h, inSlice_iff, true_and, show ¬ ("x" = "y") by decide, false_and, or_false]

theorem onLine_y (md : Mode) (h : md.direction_normal = "y") (i : Fin Nx) (j : Fin Ny) : Spec.OnLine md i j ↔
    (sliceIdx Nx (pyInt (md.center.1 - md.width / 2)) ≤ i.val ∧ i.val < sliceIdx Nx (pyInt (md.center.1 + md.width / 2))) ∧
      (sliceIdx Ny md.center.2 ≤ j.val ∧ j.val < sliceIdx Ny (md.center.2 + 1)) := by
  unfold Spec.OnLine
  simp only [h, inSlice_iff, true_and, show ¬ ("y" = "x") by decide, false_and, false_or]

/-- The slices of a mode, as `OnLine`. -/
theorem probeInds_onLine (md : Mode) : (∃ e, Sim.probeInds md.direction_normal md.center md.width = .error e) ∨ ∃ ax ix iy, Sim.probeInds md.direction_normal md.center md.width = .ok (ax, ix, iy) ∧
    ∀ (i : Fin Nx) (j : Fin Ny), Spec.OnLine md i j ↔ (sliceIdx Nx ix.1 ≤ i.val ∧ i.val < sliceIdx Nx ix.2) ∧ (sliceIdx Ny iy.1 ≤ j.val ∧ j.val < sliceIdx Ny iy.2) := by
  rcases probeInds_cases md with ⟨hd, h⟩ | ⟨hd, h⟩ | ⟨-, -, h⟩
  · exact Or.inr ⟨_, _, _, h, onLine_x md hd⟩
  · exact Or.inr ⟨_, _, _, h, onLine_y md hd⟩
  · exact Or.inl ⟨_, h⟩

theorem assign2_overlay_map (f : ℂ → ℂ) (a b c d : ℤ) (v : Grid (sliceLen Nx a b) (sliceLen Ny c d) ℂ) (P : Fin Nx → Fin Ny → Prop)
    (hP : ∀ i j, P i j ↔ (sliceIdx Nx a ≤ i.val ∧ i.val < sliceIdx Nx b) ∧ (sliceIdx Ny c ≤ j.val ∧ j.val < sliceIdx Ny d)) (g : Grid Nx Ny ℂ) :
    assign2 g a b c d (fun i j => f (v i j)) = overlay P (fun i j => f (assign2 (fun _ _ => 0) a b c d v i j)) g := by
  funext i j
  unfold assign2 overlay
  by_cases h : P i j
  · rw [if_pos h, dif_pos ((hP i j).1 h)]
    simp only [dif_pos ((hP i j).1 h)]
  · rw [if_neg h, dif_neg (fun h' => h ((hP i j).2 h'))]

theorem assign2_real (a b c d : ℤ) (v : Grid (sliceLen Nx a b) (sliceLen Ny c d) ℂ) (hv : ∀ i j, (v i j).im = 0) (i : Fin Nx) (j : Fin Ny) : (assign2 (fun _ _ => 0) a b c d v i j).im = 0 := by
  unfold assign2
  split
  · exact hv _ _
  · rfl

/-- What the final assignment does, for all entrywise changes `f` of the profile at once. -/
theorem placeMode_cases (ax : Axis) (ix iy : ℤ × ℤ) (src : Fin (sliceLen Nx ix.1 ix.2 * sliceLen Ny iy.1 iy.2) → ℂ) (P : Fin Nx → Fin Ny → Prop)
    (hP : ∀ i j, P i j ↔ (sliceIdx Nx ix.1 ≤ i.val ∧ i.val < sliceIdx Nx ix.2) ∧ (sliceIdx Ny iy.1 ≤ j.val ∧ j.val < sliceIdx Ny iy.2)) :
    (∀ (f : ℂ → ℂ) (dest : Grid Nx Ny ℂ), placeMode ax dest ix iy (fun k => f (src k)) = .error .valueError) ∨
    ∃ u : Grid Nx Ny ℂ, (∀ (f : ℂ → ℂ) (dest : Grid Nx Ny ℂ), placeMode ax dest ix iy (fun k => f (src k)) = .ok (overlay P (fun i j => signedAbs (f (u i j))) dest)) ∧
      ((∀ k, (src k).im = 0) → ∀ i j, (u i j).im = 0) := by
  cases ax
  · by_cases h : sliceLen Nx ix.1 ix.2 * sliceLen Ny iy.1 iy.2 = sliceLen Ny iy.1 iy.2
    · refine Or.inr ⟨_, fun f dest => (dif_pos h).trans (congrArg Except.ok (assign2_overlay_map (fun z => signedAbs (f z)) _ _ _ _ (fun _ j => src (Fin.cast h.symm j)) P hP dest)),
        fun hs => assign2_real _ _ _ _ _ fun i j => hs _⟩
    · exact Or.inl fun f dest => dif_neg h
  · by_cases h : sliceLen Nx ix.1 ix.2 * sliceLen Ny iy.1 iy.2 = sliceLen Nx ix.1 ix.2
    · refine Or.inr ⟨_, fun f dest => (dif_pos h).trans (congrArg Except.ok (assign2_overlay_map (fun z => signedAbs (f z)) _ _ _ _ (fun i _ => src (Fin.cast h.symm i)) P hP dest)),
        fun hs => assign2_real _ _ _ _ _ fun i j => hs _⟩
    · exact Or.inl fun f dest => dif_neg h

/-- An eigen-solver that returns the eigenvectors of `eg` multiplied by `ζ` (as good an answer, for `ζ ≠ 0`). -/
noncomputable def Eigs.times (eg : Eigs) (ζ : ℂ) : Eigs := ⟨fun A k g => (eg.eigs A k g).map fun v i j => ζ * v i j⟩

theorem times_one (eg : Eigs) : eg.times 1 = eg := by
  unfold Eigs.times
  obtain ⟨f⟩ := eg
  congr 1
  funext n A k g
  simp only [one_mul]
  cases f A k g <;> rfl

/-- Every entry of every vector returned by the eigen-solver is real. -/
def Spec.RealVectors (eg : Eigs) : Prop := ∀ {n : ℕ} (A : Mat n ℂ) (k : ℕ) (g : ℂ) (V : Fin n → Fin k → ℂ), eg.eigs A k g = .ok V → ∀ i j, (V i j).im = 0

/-- The inserted values, for all scales and all phases at once: `insert_mode` either raises, whatever the destination, or overwrites the mode's line with values that depend neither on the
destination nor on the stored source and fields. -/
theorem insert_mode_values (eg : Eigs) (md : Mode) (s : Sim Nx Ny) :
    (∃ e, ∀ ζ t dest, Mode.insert_mode (eg.times ζ) { md with scale := t } s dest = .error e) ∨
    ∃ u : Grid Nx Ny ℂ, (∀ ζ (t : ℝ) dest, Mode.insert_mode (eg.times ζ) { md with scale := t } s dest = .ok (overlay (Spec.OnLine md) (fun i j => signedAbs (ζ * u i j * (t : ℂ))) dest)) ∧
      (Spec.RealVectors eg → ∀ i j, (u i j).im = 0) := by
  unfold Mode.insert_mode
  rcases probeInds_onLine (Nx := Nx) (Ny := Ny) md with ⟨e, h⟩ | ⟨ax, ix, iy, h, hP⟩
  · exact Or.inl ⟨e, fun _ _ _ => by simp only [h]; rfl⟩
  · simp only [h, bind, Except.bind, Eigs.times]
    by_cases ho : md.order = 0
    · simp only [ho, dif_pos]
      exact Or.inl ⟨_, fun _ _ _ => rfl⟩
    · simp only [ho, dif_neg, not_false_eq_true]
      generalize hR : eg.eigs _ _ _ = R
      obtain e | vecs := R
      · exact Or.inl ⟨_, fun _ _ _ => rfl⟩
      · rcases placeMode_cases ax ix iy (fun k => vecs k ⟨md.order - 1, by omega⟩) (Spec.OnLine md) hP with hp | ⟨u, hp, hu⟩
        · exact Or.inl ⟨_, fun ζ t dest => hp (fun z => ζ * z * t) dest⟩
        · exact Or.inr ⟨u, fun ζ t dest => hp (fun z => ζ * z * t) dest, fun hre => hu fun k => hre _ _ _ _ hR _ _⟩

theorem insert_mode_cases (eg : Eigs) (md : Mode) (s : Sim Nx Ny) :
    (∃ e, ∀ dest, md.insert_mode eg s dest = .error e) ∨ ∃ v, ∀ dest, md.insert_mode eg s dest = .ok (overlay (Spec.OnLine md) v dest) := by
  have h1 := times_one eg
  rcases insert_mode_values eg md s with ⟨e, h⟩ | ⟨u, h, -⟩
  · exact Or.inl ⟨e, fun dest => h1 ▸ h 1 md.scale dest⟩
  · exact Or.inr ⟨_, fun dest => h1 ▸ h 1 md.scale dest⟩

theorem insert_mode_src (eg : Eigs) (md : Mode) (s : Sim Nx Ny) (x dest : Grid Nx Ny ℂ) : md.insert_mode eg { s with src := x } dest = md.insert_mode eg s dest := rfl

/-- The probe after a linear solve raises or not independently of the field values. -/
theorem flux_after_solve (env : Env) (s : Sim Nx Ny) (dir : String) (center : ℤ × ℤ) (w : ℝ) :
    (∃ e, ∀ x, (Sim.solve_fields env { s with src := x }).2.flux_probe dir center w = .error e) ∨
    ∃ F : Grid Nx Ny ℂ → ℝ, ∀ x, (Sim.solve_fields env { s with src := x }).2.flux_probe dir center w = .ok (F x) := by
  unfold Sim.flux_probe
  generalize Sim.probeInds dir center w = R
  obtain e | ⟨ax, ix, iy⟩ := R
  · exact Or.inl ⟨e, fun _ => rfl⟩
  · have key : ∀ {m n p q : ℕ} (f : ℂ → ℂ → ℝ) (X : Grid Nx Ny ℂ → Grid m n ℂ) (Y : Grid Nx Ny ℂ → Grid p q ℂ),
        (∃ e, ∀ x, (do let S ← bsum f (X x) (Y x); return s.dl * S : Except PyErr ℝ) = .error e) ∨
        ∃ F : Grid Nx Ny ℂ → ℝ, ∀ x, (do let S ← bsum f (X x) (Y x); return s.dl * S : Except PyErr ℝ) = .ok (F x) := by
      intro m n p q f X Y
      unfold bsum
      by_cases h : BCompat m p ∧ BCompat n q
      · simp only [dif_pos h]
        exact Or.inr ⟨_, fun x => rfl⟩
      · simp only [dif_neg h]
        exact Or.inl ⟨_, fun x => rfl⟩
    cases hp : s.pol <;> cases ax
    all_goals
      simp only [Sim.solve_fields, if_pos, hp, Sim.getField, Sim.store, bind, Except.bind, Bool.false_eq_true, if_false]
      exact key _ _ _

theorem overlay_off (P : Fin Nx → Fin Ny → Prop) (v x y : Grid Nx Ny ℂ) (h : ∀ i j, ¬ P i j → x i j = y i j) : overlay P v x = overlay P v y := by
  funext i j
  unfold overlay
  by_cases hp : P i j
  · rw [if_pos hp, if_pos hp]
  · rw [if_neg hp, if_neg hp, h i j hp]

/-- What `setup_src` does on a simulation with an arbitrary source. -/
theorem setup_src_cases (env : Env) (eg : Eigs) (md : Mode) (s : Sim Nx Ny) :
    (∃ e, ∀ x W, ∃ W', md.setup_src env eg ({ s with src := x }, W) = (.error e, ({ s with src := x }, W'))) ∨
    ∃ v, ∃ F : Grid Nx Ny ℂ → ℝ, (∀ x W, md.setup_src env eg ({ s with src := x }, W) = (.ok (), ({ s with src := overlay (Spec.OnLine md) v x }, some (F x)))) ∧
      ∀ x y, (∀ i j, ¬ Spec.OnLine md i j → x i j = y i j) → F x = F y := by
  have hn : (∃ e, ∀ x, md.compute_normalization env eg { s with src := x } = .error e) ∨
      ∃ F : Grid Nx Ny ℂ → ℝ, (∀ x, md.compute_normalization env eg { s with src := x } = .ok (F x)) ∧ ∀ x y, (∀ i j, ¬ Spec.OnLine md i j → x i j = y i j) → F x = F y := by
    unfold Mode.compute_normalization
    show (∃ e, ∀ x, (md.straight s.eps_r >>= _) = _) ∨ ∃ F : Grid Nx Ny ℂ → ℝ, (∀ x, (md.straight s.eps_r >>= _) = _) ∧ _
    generalize md.straight s.eps_r = R
    obtain e | ⟨norm_eps, nc⟩ := R
    · exact Or.inl ⟨e, fun _ => rfl⟩
    · show (∃ e, ∀ x, (do
          let src ← md.insert_mode eg (s.set_eps_r norm_eps) x
          (Sim.solve_fields env { s.set_eps_r norm_eps with src := src }).2.flux_probe md.direction_normal nc md.width : Except PyErr ℝ) = _) ∨
        ∃ F : Grid Nx Ny ℂ → ℝ, (∀ x, (do
          let src ← md.insert_mode eg (s.set_eps_r norm_eps) x
          (Sim.solve_fields env { s.set_eps_r norm_eps with src := src }).2.flux_probe md.direction_normal nc md.width : Except PyErr ℝ) = _) ∧ _
      rcases insert_mode_cases eg md (s.set_eps_r norm_eps) with ⟨e, h⟩ | ⟨v, h⟩
      · exact Or.inl ⟨e, fun x => by rw [h]; rfl⟩
      · simp only [h]
        rcases flux_after_solve env (s.set_eps_r norm_eps) md.direction_normal nc md.width with ⟨e, hf⟩ | ⟨F, hf⟩
        · exact Or.inl ⟨e, fun x => hf _⟩
        · exact Or.inr ⟨fun x => F (overlay (Spec.OnLine md) v x), fun x => hf _, fun x y hxy => congrArg F (overlay_off _ _ _ _ hxy)⟩
  unfold Mode.setup_src
  rcases hn with ⟨e, hn⟩ | ⟨F, hn, hF⟩
  · exact Or.inl ⟨e, fun x W => ⟨W, by simp only [hn]⟩⟩
  · simp only [hn]
    rcases insert_mode_cases eg md s with ⟨e, h⟩ | ⟨v, h⟩
    · have h' : ∀ x, md.insert_mode eg { s with src := x } x = .error e := h
      exact Or.inl ⟨e, fun x W => ⟨some (F x), by simp only [h']⟩⟩
    · have h' : ∀ x, md.insert_mode eg { s with src := x } x = .ok (overlay (Spec.OnLine md) v x) := h
      exact Or.inr ⟨v, F, fun x W => by simp only [h'], hF⟩

/-! ## C53 -/

/-- **C53, locality.** Whatever happens (an exception in the middle included), `setup_modes` changes nothing in the simulation but the source, and the source only on the lines of the
modes. -/
theorem C53_line_only (env : Env) (eg : Eigs) (modes : List Mode) (s : Sim Nx Ny) (W : Option ℝ) : ∃ x, (setup_modes env eg modes (s, W)).2.1 = { s with src := x } ∧
    ∀ i j, (∀ md ∈ modes, ¬ Spec.OnLine md i j) → x i j = s.src i j := by
  induction modes generalizing s W with
  | nil => exact ⟨s.src, rfl, fun _ _ _ => rfl⟩
  | cons md rest ih =>
    unfold setup_modes
    rcases setup_src_cases env eg md s with ⟨e, h⟩ | ⟨v, F, h, -⟩
    · obtain ⟨W', h⟩ := h s.src W
      have h' : md.setup_src env eg (s, W) = (.error e, (s, W')) := h
      rw [h']
      exact ⟨s.src, rfl, fun _ _ _ => rfl⟩
    · have h' : md.setup_src env eg (s, W) = (.ok (), ({ s with src := overlay (Spec.OnLine md) v s.src }, some (F s.src))) := h s.src W
      rw [h']
      obtain ⟨x, hx, hoff⟩ := ih { s with src := overlay (Spec.OnLine md) v s.src } (some (F s.src))
      refine ⟨x, hx, fun i j hij => ?_⟩
      rw [hoff i j fun md' hm => hij md' (List.mem_cons_of_mem _ hm)]
      exact if_neg (hij md List.mem_cons_self)

/-- A sequence of overwrites. -/
noncomputable def overlays : List ((Fin Nx → Fin Ny → Prop) × Grid Nx Ny ℂ) → Grid Nx Ny ℂ → Grid Nx Ny ℂ
  | [], x => x
  | (P, v) :: l, x => overlays l (overlay P v x)

theorem overlays_point (l : List ((Fin Nx → Fin Ny → Prop) × Grid Nx Ny ℂ)) (i : Fin Nx) (j : Fin Ny) (x y : Grid Nx Ny ℂ) :
    overlays l x i j = overlays l y i j ∨ (overlays l x i j = x i j ∧ overlays l y i j = y i j) := by
  induction l generalizing x y with
  | nil => exact Or.inr ⟨rfl, rfl⟩
  | cons p l ih =>
    obtain ⟨P, v⟩ := p
    rcases ih (overlay P v x) (overlay P v y) with h | ⟨h1, h2⟩
    · exact Or.inl h
    · by_cases hp : P i j
      · left
        show overlays l _ i j = overlays l _ i j
        rw [h1, h2]
        unfold overlay
        rw [if_pos hp, if_pos hp]
      · right
        refine ⟨h1.trans (if_neg hp), h2.trans (if_neg hp)⟩

theorem overlays_idem (l : List ((Fin Nx → Fin Ny → Prop) × Grid Nx Ny ℂ)) (x : Grid Nx Ny ℂ) : overlays l (overlays l x) = overlays l x := by
  funext i j
  rcases overlays_point l i j x (overlays l x) with h | ⟨-, h⟩
  · exact h.symm
  · exact h

/-- A successful run, replayed from any source. -/
theorem setup_modes_run (env : Env) (eg : Eigs) (modes : List Mode) (s : Sim Nx Ny) (W : Option ℝ) (s1 : Sim Nx Ny) (W1 : Option ℝ) (h : setup_modes env eg modes (s, W) = (.ok (), (s1, W1))) :
    ∃ (l : List ((Fin Nx → Fin Ny → Prop) × Grid Nx Ny ℂ)) (G : Grid Nx Ny ℂ → Option ℝ → Option ℝ),
      (∀ x W, setup_modes env eg modes ({ s with src := x }, W) = (.ok (), ({ s with src := overlays l x }, G x W))) ∧
      ((l = [] ∧ ∀ x W, G x W = W) ∨ ∀ x y W W', overlays l x = overlays l y → G x W = G y W') := by
  induction modes generalizing s W with
  | nil => exact ⟨[], fun _ W => W, fun _ _ => rfl, Or.inl ⟨rfl, fun _ _ => rfl⟩⟩
  | cons md rest ih =>
    unfold setup_modes at h
    rcases setup_src_cases env eg md s with ⟨e, hs⟩ | ⟨v, F, hs, hF⟩
    · obtain ⟨W', hs⟩ := hs s.src W
      have h' : md.setup_src env eg (s, W) = (.error e, (s, W')) := hs
      rw [h'] at h
      cases (Prod.mk.inj h).1
    · have h' : md.setup_src env eg (s, W) = (.ok (), ({ s with src := overlay (Spec.OnLine md) v s.src }, some (F s.src))) := hs s.src W
      rw [h'] at h
      obtain ⟨l, G, hrun, hG⟩ := ih { s with src := overlay (Spec.OnLine md) v s.src } (some (F s.src)) h
      refine ⟨(Spec.OnLine md, v) :: l, fun x _ => G (overlay (Spec.OnLine md) v x) (some (F x)), fun x W => ?_, Or.inr fun x y W W' hxy => ?_⟩
      · unfold setup_modes
        rw [hs x W]
        exact hrun _ _
      · rcases hG with ⟨rfl, hG⟩ | hG
        · show G _ _ = G _ _
          rw [hG, hG, hF x y fun i j hij => ?_]
          have h2 : overlay (Spec.OnLine md) v x i j = overlay (Spec.OnLine md) v y i j := congrFun (congrFun hxy i) j
          unfold overlay at h2
          rw [if_neg hij, if_neg hij] at h2
          exact h2
        · exact hG _ _ _ _ hxy

/-- **C53, idempotence.** Running `setup_modes` again after a successful run changes neither the source nor `W_in` (for an eigen-solver that answers equal questions equally). -/
theorem C53_idempotent (env : Env) (eg : Eigs) (modes : List Mode) (s : Sim Nx Ny) (W : Option ℝ) (s1 : Sim Nx Ny) (W1 : Option ℝ)
    (h : setup_modes env eg modes (s, W) = (.ok (), (s1, W1))) : setup_modes env eg modes (s1, W1) = (.ok (), (s1, W1)) := by
  obtain ⟨l, G, hrun, hG⟩ := setup_modes_run env eg modes s W s1 W1 h
  have h0 : setup_modes env eg modes (s, W) = (.ok (), ({ s with src := overlays l s.src }, G s.src W)) := hrun s.src W
  rw [h0] at h
  obtain ⟨rfl, rfl⟩ := Prod.mk.inj (Prod.mk.inj h).2
  rw [hrun (overlays l s.src) (G s.src W), overlays_idem]
  rcases hG with ⟨-, hG⟩ | hG
  · rw [hG, hG]
  · rw [hG (overlays l s.src) s.src (G s.src W) W (overlays_idem l s.src)]

/-! ### Scale and phase -/

theorem signedAbs_real_mul (z : ℂ) (t : ℝ) : signedAbs (z * (t : ℂ)) = (t : ℂ) * signedAbs z := by
  unfold signedAbs
  rw [norm_mul, Complex.norm_real, Complex.re_mul_ofReal, sign_mul, SignType.coe_mul, ← Complex.ofReal_mul, Real.norm_eq_abs]
  congr 1
  have : |t| * (SignType.sign t : ℝ) = t := by rw [mul_comm]; exact sign_mul_abs t
  linear_combination (‖z‖ * (SignType.sign z.re : ℝ)) * this

/-- **C53, scale.** For a real scale `t` the source written on the line is `t` times the one written for scale 1 (and the same inputs raise). -/
theorem C53_scale (eg : Eigs) (md : Mode) (s : Sim Nx Ny) (t : ℝ) (dest : Grid Nx Ny ℂ) :
    (∃ e, Mode.insert_mode eg { md with scale := t } s dest = .error e ∧ Mode.insert_mode eg { md with scale := 1 } s dest = .error e) ∨
    ∃ g g1, Mode.insert_mode eg { md with scale := t } s dest = .ok g ∧ Mode.insert_mode eg { md with scale := 1 } s dest = .ok g1 ∧
      ∀ i j, (Spec.OnLine md i j → g i j = t * g1 i j) ∧ (¬ Spec.OnLine md i j → g i j = dest i j ∧ g1 i j = dest i j) := by
  rcases insert_mode_values eg md s with ⟨e, h⟩ | ⟨u, h, -⟩
  · have ht := h 1 t dest
    have h1 := h 1 1 dest
    rw [times_one] at ht h1
    exact Or.inl ⟨e, ht, h1⟩
  · have ht := h 1 t dest
    have h1 := h 1 1 dest
    rw [times_one] at ht h1
    refine Or.inr ⟨_, _, ht, h1, fun i j => ⟨fun hl => ?_, fun hl => ⟨if_neg hl, if_neg hl⟩⟩⟩
    unfold overlay
    rw [if_pos hl, if_pos hl]
    show signedAbs (1 * u i j * (t : ℂ)) = t * signedAbs (1 * u i j * ((1 : ℝ) : ℂ))
    rw [signedAbs_real_mul, signedAbs_real_mul, Complex.ofReal_one, one_mul, one_mul]

/-! ### C60: the phase of the eigenvector -/

/-- **C60 (partial).** If the modes are real, an eigen-solver that multiplies its eigenvectors by a phase `ζ` leads to the same source up to the sign of `Re ζ`.  Missing: phases with
`Re ζ = 0` (`C60_false`) and complex (lossy) modes. -/
theorem C60_phase_partial (eg : Eigs) (hre : Spec.RealVectors eg) (md : Mode) (s : Sim Nx Ny) (ζ : ℂ) (hζ : ‖ζ‖ = 1) (h0 : ζ.re ≠ 0) (dest : Grid Nx Ny ℂ) :
    (∃ e, md.insert_mode (eg.times ζ) s dest = .error e ∧ md.insert_mode eg s dest = .error e) ∨
    ∃ g' g, md.insert_mode (eg.times ζ) s dest = .ok g' ∧ md.insert_mode eg s dest = .ok g ∧
      ((∀ i j, Spec.OnLine md i j → g' i j = g i j) ∨ ∀ i j, Spec.OnLine md i j → g' i j = -g i j) ∧ ∀ i j, ¬ Spec.OnLine md i j → g' i j = g i j := by
  rcases insert_mode_values eg md s with ⟨e, h⟩ | ⟨u, h, hu⟩
  · have h1 := h 1 md.scale dest
    rw [times_one] at h1
    exact Or.inl ⟨e, h ζ md.scale dest, h1⟩
  · have h1 := h 1 md.scale dest
    rw [times_one] at h1
    have hval : ∀ i j, Spec.OnLine md i j → signedAbs (ζ * u i j * (md.scale : ℂ)) = (SignType.sign ζ.re : ℝ) * signedAbs (1 * u i j * (md.scale : ℂ)) := by
      intro i j hl
      have hr : u i j = (((u i j).re : ℝ) : ℂ) := Complex.ext rfl (hu hre i j)
      rw [hr, mul_assoc, one_mul, ← Complex.ofReal_mul]
      unfold signedAbs
      rw [norm_mul, hζ, one_mul, Complex.re_mul_ofReal, sign_mul, SignType.coe_mul, Complex.ofReal_re, ← Complex.ofReal_mul]
      congr 1
      ring
    refine Or.inr ⟨_, _, h ζ md.scale dest, h1, ?_, fun i j hl => by unfold overlay; rw [if_neg hl, if_neg hl]⟩
    rcases lt_or_gt_of_ne h0 with hneg | hpos
    · right
      intro i j hl
      unfold overlay
      rw [if_pos hl, if_pos hl]
      show signedAbs (ζ * u i j * (md.scale : ℂ)) = -signedAbs (1 * u i j * (md.scale : ℂ))
      rw [hval i j hl, sign_neg hneg]
      simp
    · left
      intro i j hl
      unfold overlay
      rw [if_pos hl, if_pos hl]
      show signedAbs (ζ * u i j * (md.scale : ℂ)) = signedAbs (1 * u i j * (md.scale : ℂ))
      rw [hval i j hl, sign_pos hpos]
      simp

/-! ### A concrete mode -/

/-- An eigen-solver returning constant vectors: on a uniform slice these are eigenvectors of the (periodic) mode operator. -/
noncomputable def oneEigs : Eigs := ⟨fun _ _ _ => .ok fun _ _ => 1⟩

/-- A mode on column 1, rows 0 and 1. -/
noncomputable def mode1 : Mode := { neff := 1, direction_normal := "x", center := (1, 1), width := 2, scale := 1, order := 1 }

theorem oneEigs_real : Spec.RealVectors oneEigs := by
  intro n A k g V h i j
  cases h
  rfl

theorem mode1_ends : pyInt ((mode1.center.2 : ℝ) - mode1.width / 2) = 0 ∧ pyInt ((mode1.center.2 : ℝ) + mode1.width / 2) = 2 := by
  constructor
  · show pyInt (((1 : ℤ) : ℝ) - 2 / 2) = 0
    unfold pyInt
    norm_num
  · show pyInt (((1 : ℤ) : ℝ) + 2 / 2) = 2
    unfold pyInt
    rw [if_pos (by norm_num), Int.floor_eq_iff]
    norm_num

theorem mode1_line (j : Fin 3) (hj : j.val < 2) : Spec.OnLine (Nx := 3) mode1 1 j := by
  refine Or.inl ⟨rfl, ?_, ?_⟩
  · show Spec.InSlice 3 1 (1 + 1) 1
    unfold Spec.InSlice
    decide
  · rw [mode1_ends.1, mode1_ends.2]
    unfold Spec.InSlice
    refine ⟨by simp, ?_⟩
    simp only [show ¬ ((2 : ℤ) < 0) by decide, if_false]
    omega

/-- The constant profile is written on the line of `mode1`, with the phase of the eigen-solver. -/
theorem mode1_insert (s : Sim 3 3) (ζ : ℂ) (dest : Grid 3 3 ℂ) :
    ∃ g, mode1.insert_mode (oneEigs.times ζ) s dest = .ok g ∧ (∀ i j, Spec.OnLine mode1 i j → g i j = signedAbs ζ) ∧ ∀ i j, ¬ Spec.OnLine mode1 i j → g i j = dest i j := by
  have hin : Sim.probeInds mode1.direction_normal mode1.center mode1.width = .ok (.x, (1, 2), (0, 2)) := by
    rcases probeInds_cases mode1 with ⟨-, h⟩ | ⟨hd, -⟩ | ⟨hd, -, -⟩
    · rw [h, mode1_ends.1, mode1_ends.2]
      rfl
    · exact absurd hd (by decide)
    · exact absurd rfl hd
  have hP : ∀ (i : Fin 3) (j : Fin 3), Spec.OnLine mode1 i j ↔ (sliceIdx 3 1 ≤ i.val ∧ i.val < sliceIdx 3 2) ∧ (sliceIdx 3 0 ≤ j.val ∧ j.val < sliceIdx 3 2) := by
    intro i j
    rw [onLine_x mode1 rfl, mode1_ends.1, mode1_ends.2]
    rfl
  have hrun : mode1.insert_mode (oneEigs.times ζ) s dest = placeMode .x dest (1, 2) (0, 2) (fun _ => ζ * 1 * ((1 : ℝ) : ℂ)) := by
    unfold Mode.insert_mode
    rw [hin]
    rfl
  have hsz : sliceLen 3 1 2 * sliceLen 3 0 2 = sliceLen 3 0 2 := by decide
  rw [hrun]
  unfold placeMode
  simp only
  rw [dif_pos hsz]
  refine ⟨_, rfl, fun i j h => ?_, fun i j h => ?_⟩
  · unfold assign2
    rw [dif_pos ((hP i j).1 h), Complex.ofReal_one, mul_one, mul_one]
  · unfold assign2
    rw [dif_neg fun h' => h ((hP i j).2 h')]

/-- **C60, negation.** An eigen-solver that returns the same real mode multiplied by `i` leads to a vanishing source (and this really is a change: with the mode itself the source is 1). -/
theorem C60_false (s : Sim 3 3) : Spec.RealVectors oneEigs ∧ (∃ g, mode1.insert_mode oneEigs s (fun _ _ => 0) = .ok g ∧ g 1 0 = 1) ∧
    mode1.insert_mode (oneEigs.times Complex.I) s (fun _ _ => 0) = .ok fun _ _ => 0 := by
  refine ⟨oneEigs_real, ?_, ?_⟩
  · obtain ⟨g, hg, h1, -⟩ := mode1_insert s 1 (fun _ _ => 0)
    rw [times_one] at hg
    refine ⟨g, hg, ?_⟩
    rw [h1 1 0 (mode1_line 0 (by decide))]
    unfold signedAbs
    simp
  · obtain ⟨g, hg, h1, h2⟩ := mode1_insert s Complex.I (fun _ _ => 0)
    rw [hg]
    congr 1
    funext i j
    by_cases h : Spec.OnLine mode1 i j
    · rw [h1 i j h]
      unfold signedAbs
      simp
    · exact h2 i j h

/-! ## C54 -/

/-- `eps` is the straight waveguide through the cross-section of `eps_r` at column `c`: `m` (the largest `|eps_r|`) on the rows where `eps_r[c, j] > 1`, one elsewhere. -/
def Spec.StraightX (eps_r : Grid Nx Ny ℂ) (c : Fin Nx) (m : ℝ) (eps : Grid Nx Ny ℂ) : Prop := ∀ i j, (Mode.gtOne (eps_r c j) → eps i j = m) ∧ (¬ Mode.gtOne (eps_r c j) → eps i j = 1)

/-- The straight waveguide and the mirrored probe position. -/
theorem straight_x (md : Mode) (hd : md.direction_normal = "x") (eps_r : Grid Nx Ny ℂ) (c : Fin Nx) (hc : Mode.pyIndex Nx md.center.1 = .ok c) (hy : 0 < Ny) :
    ∃ eps, md.straight eps_r = .ok (eps, ((Nx : ℤ) - md.center.1, md.center.2)) ∧ Spec.StraightX eps_r c (gridMax fun i j => ‖eps_r i j‖) eps := by
  have h0 : ¬ Nx * Ny = 0 := (Nat.mul_pos (by have := c.2; omega) hy).ne'
  unfold Mode.straight
  rw [if_neg h0, if_pos hd, hc]
  refine ⟨_, rfl, fun i j => ⟨fun h => ?_, fun h => ?_⟩⟩
  · exact if_pos h
  · exact if_neg h

/-- A probe on or beyond the last column only ever returns 0. -/
theorem flux_beyond (s : Sim Nx Ny) (c yc : ℤ) (w : ℝ) (hc : (Nx : ℤ) - 1 ≤ c) (h0 : 0 ≤ c) (W : ℝ) (h : s.flux_probe "x" (c, yc) w = .ok W) : W = 0 := by
  have l1 : sliceLen Nx c (c + 1 + 1) - 1 = 0 := by unfold sliceLen sliceIdx; split <;> split <;> omega
  have l2 : sliceLen Nx c (c + 1) ≤ 1 := by unfold sliceLen sliceIdx; split <;> split <;> omega
  have key : ∀ {m n p q : ℕ} (f : ℂ → ℂ → ℝ) (x : Grid m n ℂ) (y : Grid p q ℂ) (_ : bdim m p = 0), (do let S ← bsum f x y; return s.dl * S : Except PyErr ℝ) = .ok W → W = 0 := by
    intro m n p q f x y hb h
    by_cases hcmp : BCompat m p ∧ BCompat n q
    · rw [bsum_empty f x y hcmp (Or.inl hb)] at h
      have h' : Except.ok (s.dl * 0) = (Except.ok W : Except PyErr ℝ) := h
      rw [mul_zero] at h'
      cases h'
      rfl
    · rw [bsum_error f x y hcmp] at h
      cases h
  have b1 : bdim (sliceLen Nx c (c + 1 + 1) - 1) (sliceLen Nx c (c + 1)) = 0 := by rw [l1]; rfl
  have b2 : bdim (sliceLen Nx c (c + 1)) (sliceLen Nx c (c + 1 + 1) - 1) = 0 := by rw [l1]; unfold bdim; split <;> omega
  simp only [Sim.flux_probe, Sim.probeInds, if_pos, bind, Except.bind, Bool.false_eq_true, if_false] at h
  cases hp : s.pol <;> simp only [hp, Sim.getField] at h
  · cases hE : s.fields .Ez <;> simp only [hE] at h
    · cases h
    · cases hH : s.fields .Hy <;> simp only [hH] at h
      · cases h
      · exact key _ _ _ b1 h
  · cases hE : s.fields .Hz <;> simp only [hE] at h
    · cases h
    · cases hH : s.fields .Ey <;> simp only [hH] at h
      · cases h
      · exact key _ _ _ b2 h

/-- **C54, negation.** For a mode centred at column 0 or 1, or at any column counted from the end, the stored input power is 0 whatever the mode (if it is computed at all). -/
theorem C54_zero_false (env : Env) (eg : Eigs) (md : Mode) (hd : md.direction_normal = "x") (hc : md.center.1 ≤ 1) (s : Sim Nx Ny) (W : ℝ) (h : md.compute_normalization env eg s = .ok W) :
    W = 0 := by
  unfold Mode.compute_normalization Mode.straight at h
  simp only [hd] at h
  by_cases h0 : Nx * Ny = 0
  · rw [if_pos h0] at h; cases h
  · rw [if_neg h0] at h
    simp only [if_pos, bind, Except.bind] at h
    generalize hR : Mode.pyIndex Nx md.center.1 = R at h
    obtain e | c := R
    · cases h
    · simp only [pure, Except.pure] at h
      generalize Mode.insert_mode _ _ _ _ = R2 at h
      obtain e | src := R2
      · cases h
      · have hNx : 0 < Nx := by have := c.2; omega
        exact flux_beyond _ _ _ _ (by omega) (by omega) W h

theorem pyIndex_natCast {n : ℕ} (c : Fin n) : Mode.pyIndex n (c.val : ℤ) = .ok c := by
  have := c.2
  unfold Mode.pyIndex
  rw [dif_pos ⟨by omega, by omega⟩]
  congr 1

/-- **C54 (partial), normal `x`.** For a mode centred at a column `c ≥ 2`, with a line that ends before the last row, `W_in` is the flux, through the mirrored column `Nx - c`, of the
field radiated in the straight waveguide by the mode's profile for that waveguide, together with whatever source the simulation already has off the mode's line.  If the profile cannot be
computed the exception is passed on.  Missing: centres 0, 1 and negative ones (`C54_zero_false`). -/
theorem C54_normalisation_x_partial (env : Env) (eg : Eigs) (md : Mode) (hd : md.direction_normal = "x") (s : Sim Nx Ny) (c : Fin Nx) (hc : md.center.1 = c.val) (a b : ℕ)
    (hs : Spec.Span Ny (pyInt (md.center.2 - md.width / 2)) (pyInt (md.center.2 + md.width / 2)) a b) (col col1 : Fin Nx) (hcol : col.val + c.val = Nx) (hcol1 : col1.val = col + 1) :
    ∃ m eps, Spec.MaxShift (fun i j => ‖s.eps_r i j‖) m ∧ Spec.StraightX s.eps_r c m eps ∧
      ((∃ e, (∀ dest, md.insert_mode eg (s.set_eps_r eps) dest = .error e) ∧ md.compute_normalization env eg s = .error e) ∨
      ∃ prof src t W, md.insert_mode eg (s.set_eps_r eps) (fun _ _ => 0) = .ok prof ∧
        (∀ i j, (Spec.OnLine md i j → src i j = prof i j) ∧ (¬ Spec.OnLine md i j → src i j = s.src i j)) ∧
        (Sim.solve_fields env { s.set_eps_r eps with src := src }).1 = .ok t ∧ md.compute_normalization env eg s = .ok W ∧
        (s.pol = .Ez → W = s.dl * ∑ j with a ≤ (j : Fin Ny).val ∧ j.val < b, Spec.Sx 0 ((t.2.2 col j + t.2.2 col1 j) / 2) (t.2.1 col j) 0) ∧
        (s.pol = .Hz → W = s.dl * ∑ j with a ≤ (j : Fin Ny).val ∧ j.val < b, Spec.Sx (t.2.1 col j) 0 0 ((t.2.2 col j + t.2.2 col1 j) / 2))) := by
  have hy : 0 < Ny := by obtain ⟨-, h | h⟩ := hs <;> omega
  obtain ⟨eps, hst, heps⟩ := straight_x md hd s.eps_r c (by rw [hc]; exact pyIndex_natCast c) hy
  have hcn : md.compute_normalization env eg s = (do
      let src ← md.insert_mode eg (s.set_eps_r eps) s.src
      (Sim.solve_fields env { s.set_eps_r eps with src := src }).2.flux_probe "x" ((Nx : ℤ) - md.center.1, md.center.2) md.width : Except PyErr ℝ) := by
    unfold Mode.compute_normalization
    rw [hst, hd]
    rfl
  refine ⟨_, eps, (gridMax_spec _ fun i j => norm_nonneg _).1, heps, ?_⟩
  rcases insert_mode_cases eg md (s.set_eps_r eps) with ⟨e, h⟩ | ⟨v, h⟩
  · exact Or.inl ⟨e, h, by rw [hcn, h]; rfl⟩
  · right
    have hden : Spec.Denotes Nx 1 ((Nx : ℤ) - md.center.1) col := by
      left
      have := col1.2
      constructor <;> omega
    have hflux := C51_flux_x_partial (Sim.solve_fields env { s.set_eps_r eps with src := overlay (Spec.OnLine md) v s.src }).2 false ((Nx : ℤ) - md.center.1) md.center.2 md.width
      col col1 hcol1 a b hden hs _ rfl
    rw [h] at hcn
    have hcn' : md.compute_normalization env eg s =
        (Sim.solve_fields env { s.set_eps_r eps with src := overlay (Spec.OnLine md) v s.src }).2.flux_probe "x" ((Nx : ℤ) - md.center.1, md.center.2) md.width := hcn
    have hsrc : ∀ i j, (Spec.OnLine md i j → overlay (Spec.OnLine md) v s.src i j = overlay (Spec.OnLine md) v (fun _ _ => 0) i j) ∧
        (¬ Spec.OnLine md i j → overlay (Spec.OnLine md) v s.src i j = s.src i j) := by
      intro i j
      refine ⟨fun hl => ?_, fun hl => if_neg hl⟩
      unfold overlay
      rw [if_pos hl, if_pos hl]
    generalize overlay (Spec.OnLine md) v s.src = src at *
    cases hp : s.pol
    · have hk : ∀ x : Sim Nx Ny, x.pol = .Ez → (Sim.solve_fields env x).2.fields .Ez = some (x.in_plane false x.eps_r (solver_direct env x.A x.rhs)).2.2 ∧
          (Sim.solve_fields env x).2.fields .Hy = some (x.in_plane false x.eps_r (solver_direct env x.A x.rhs)).2.1 ∧
          (Sim.solve_fields env x).1 = .ok (x.in_plane false x.eps_r (solver_direct env x.A x.rhs)) ∧ (Sim.solve_fields env x).2.pol = .Ez := by
        intro x hx
        unfold Sim.solve_fields
        rw [if_pos rfl]
        simp only [Sim.store, hx]
        exact ⟨trivial, trivial, trivial, trivial⟩
      obtain ⟨k1, k2, k3, k4⟩ := hk { s.set_eps_r eps with src := src } hp
      have hW := hflux.1 _ _ k4 k1 k2
      exact ⟨_, src, _, _, h _, hsrc, k3, hcn'.trans hW, fun _ => rfl, fun hh => by cases hh⟩
    · have hk : ∀ x : Sim Nx Ny, x.pol = .Hz → (Sim.solve_fields env x).2.fields .Hz = some (x.in_plane false x.eps_r (solver_direct env x.A x.rhs)).2.2 ∧
          (Sim.solve_fields env x).2.fields .Ey = some (x.in_plane false x.eps_r (solver_direct env x.A x.rhs)).2.1 ∧
          (Sim.solve_fields env x).1 = .ok (x.in_plane false x.eps_r (solver_direct env x.A x.rhs)) ∧ (Sim.solve_fields env x).2.pol = .Hz := by
        intro x hx
        unfold Sim.solve_fields
        rw [if_pos rfl]
        simp only [Sim.store, hx]
        exact ⟨trivial, trivial, trivial, trivial⟩
      obtain ⟨k1, k2, k3, k4⟩ := hk { s.set_eps_r eps with src := src } hp
      have hW := hflux.2 _ _ k4 k1 k2
      exact ⟨_, src, _, _, h _, hsrc, k3, hcn'.trans hW, fun hh => (by cases hh), fun _ => rfl⟩

/-- The same for a horizontal cross-section (row `c`). -/
def Spec.StraightY (eps_r : Grid Nx Ny ℂ) (c : Fin Ny) (m : ℝ) (eps : Grid Nx Ny ℂ) : Prop := ∀ i j, (Mode.gtOne (eps_r i c) → eps i j = m) ∧ (¬ Mode.gtOne (eps_r i c) → eps i j = 1)

theorem straight_y (md : Mode) (hd : md.direction_normal = "y") (eps_r : Grid Nx Ny ℂ) (c : Fin Ny) (hc : Mode.pyIndex Ny md.center.2 = .ok c) (hx : 0 < Nx) :
    ∃ eps, md.straight eps_r = .ok (eps, (md.center.1, (Ny : ℤ) - md.center.2)) ∧ Spec.StraightY eps_r c (gridMax fun i j => ‖eps_r i j‖) eps := by
  have h0 : ¬ Nx * Ny = 0 := (Nat.mul_pos hx (by have := c.2; omega)).ne'
  unfold Mode.straight
  rw [if_neg h0, if_neg (by rw [hd]; decide), if_pos hd, hc]
  refine ⟨_, rfl, fun i j => ⟨fun h => ?_, fun h => ?_⟩⟩
  · exact if_pos h
  · exact if_neg h

/-- **C54 (partial), normal `y`.** For a mode centred at a row `c ≥ 2`, with a line that ends before the last column, `W_in` is the flux, through the mirrored row `Ny - c`, of the
field radiated in the straight waveguide by the mode's profile for that waveguide, together with whatever source the simulation already has off the mode's line.  If the profile cannot be
computed the exception is passed on.  Missing: centres 0, 1 and negative ones (`C54_zero_false`). -/
theorem C54_normalisation_y_partial (env : Env) (eg : Eigs) (md : Mode) (hd : md.direction_normal = "y") (s : Sim Nx Ny) (c : Fin Ny) (hc : md.center.2 = c.val) (a b : ℕ)
    (hs : Spec.Span Nx (pyInt (md.center.1 - md.width / 2)) (pyInt (md.center.1 + md.width / 2)) a b) (row row1 : Fin Ny) (hrow : row.val + c.val = Ny) (hrow1 : row1.val = row + 1) :
    ∃ m eps, Spec.MaxShift (fun i j => ‖s.eps_r i j‖) m ∧ Spec.StraightY s.eps_r c m eps ∧
      ((∃ e, (∀ dest, md.insert_mode eg (s.set_eps_r eps) dest = .error e) ∧ md.compute_normalization env eg s = .error e) ∨
      ∃ prof src t W, md.insert_mode eg (s.set_eps_r eps) (fun _ _ => 0) = .ok prof ∧
        (∀ i j, (Spec.OnLine md i j → src i j = prof i j) ∧ (¬ Spec.OnLine md i j → src i j = s.src i j)) ∧
        (Sim.solve_fields env { s.set_eps_r eps with src := src }).1 = .ok t ∧ md.compute_normalization env eg s = .ok W ∧
        (s.pol = .Ez → W = s.dl * ∑ i with a ≤ (i : Fin Nx).val ∧ i.val < b, Spec.Sy 0 ((t.2.2 i row + t.2.2 i row1) / 2) (t.1 i row) 0) ∧
        (s.pol = .Hz → W = s.dl * ∑ i with a ≤ (i : Fin Nx).val ∧ i.val < b, Spec.Sy (t.1 i row) 0 0 ((t.2.2 i row + t.2.2 i row1) / 2))) := by
  have hx : 0 < Nx := by obtain ⟨-, h | h⟩ := hs <;> omega
  obtain ⟨eps, hst, heps⟩ := straight_y md hd s.eps_r c (by rw [hc]; exact pyIndex_natCast c) hx
  have hcn : md.compute_normalization env eg s = (do
      let src ← md.insert_mode eg (s.set_eps_r eps) s.src
      (Sim.solve_fields env { s.set_eps_r eps with src := src }).2.flux_probe "y" (md.center.1, (Ny : ℤ) - md.center.2) md.width : Except PyErr ℝ) := by
    unfold Mode.compute_normalization
    rw [hst, hd]
    rfl
  refine ⟨_, eps, (gridMax_spec _ fun i j => norm_nonneg _).1, heps, ?_⟩
  rcases insert_mode_cases eg md (s.set_eps_r eps) with ⟨e, h⟩ | ⟨v, h⟩
  · exact Or.inl ⟨e, h, by rw [hcn, h]; rfl⟩
  · right
    have hden : Spec.Denotes Ny 1 ((Ny : ℤ) - md.center.2) row := by
      left
      have := row1.2
      constructor <;> omega
    have hflux := C51_flux_y_partial (Sim.solve_fields env { s.set_eps_r eps with src := overlay (Spec.OnLine md) v s.src }).2 false md.center.1 ((Ny : ℤ) - md.center.2) md.width
      row row1 hrow1 a b hden hs _ rfl
    rw [h] at hcn
    have hcn' : md.compute_normalization env eg s =
        (Sim.solve_fields env { s.set_eps_r eps with src := overlay (Spec.OnLine md) v s.src }).2.flux_probe "y" (md.center.1, (Ny : ℤ) - md.center.2) md.width := hcn
    have hsrc : ∀ i j, (Spec.OnLine md i j → overlay (Spec.OnLine md) v s.src i j = overlay (Spec.OnLine md) v (fun _ _ => 0) i j) ∧
        (¬ Spec.OnLine md i j → overlay (Spec.OnLine md) v s.src i j = s.src i j) := by
      intro i j
      refine ⟨fun hl => ?_, fun hl => if_neg hl⟩
      unfold overlay
      rw [if_pos hl, if_pos hl]
    generalize overlay (Spec.OnLine md) v s.src = src at *
    cases hp : s.pol
    · have hk : ∀ x : Sim Nx Ny, x.pol = .Ez → (Sim.solve_fields env x).2.fields .Ez = some (x.in_plane false x.eps_r (solver_direct env x.A x.rhs)).2.2 ∧
          (Sim.solve_fields env x).2.fields .Hx = some (x.in_plane false x.eps_r (solver_direct env x.A x.rhs)).1 ∧
          (Sim.solve_fields env x).1 = .ok (x.in_plane false x.eps_r (solver_direct env x.A x.rhs)) ∧ (Sim.solve_fields env x).2.pol = .Ez := by
        intro x hx
        unfold Sim.solve_fields
        rw [if_pos rfl]
        simp only [Sim.store, hx]
        exact ⟨trivial, trivial, trivial, trivial⟩
      obtain ⟨k1, k2, k3, k4⟩ := hk { s.set_eps_r eps with src := src } hp
      have hW := hflux.1 _ _ k4 k1 k2
      exact ⟨_, src, _, _, h _, hsrc, k3, hcn'.trans hW, fun _ => rfl, fun hh => by cases hh⟩
    · have hk : ∀ x : Sim Nx Ny, x.pol = .Hz → (Sim.solve_fields env x).2.fields .Hz = some (x.in_plane false x.eps_r (solver_direct env x.A x.rhs)).2.2 ∧
          (Sim.solve_fields env x).2.fields .Ex = some (x.in_plane false x.eps_r (solver_direct env x.A x.rhs)).1 ∧
          (Sim.solve_fields env x).1 = .ok (x.in_plane false x.eps_r (solver_direct env x.A x.rhs)) ∧ (Sim.solve_fields env x).2.pol = .Hz := by
        intro x hx
        unfold Sim.solve_fields
        rw [if_pos rfl]
        simp only [Sim.store, hx]
        exact ⟨trivial, trivial, trivial, trivial⟩
      obtain ⟨k1, k2, k3, k4⟩ := hk { s.set_eps_r eps with src := src } hp
      have hW := hflux.2 _ _ k4 k1 k2
      exact ⟨_, src, _, _, h _, hsrc, k3, hcn'.trans hW, fun hh => (by cases hh), fun _ => rfl⟩

/-- **C54, negation on a concrete mode.** `mode1` (column 1 of a 3 × 3 grid) has a source of amplitude 1 and stores the input power 0. -/
theorem C54_false (env : Env) (s : Sim 3 3) (hp : s.pol = .Ez) :
    (∃ g, mode1.insert_mode oneEigs s (fun _ _ => 0) = .ok g ∧ g 1 0 = 1) ∧ mode1.compute_normalization env oneEigs s = .ok 0 := by
  refine ⟨(C60_false s).2.1, ?_⟩
  obtain ⟨eps, hst, -⟩ := straight_x mode1 rfl s.eps_r 1 (pyIndex_natCast (n := 3) 1) (by omega)
  obtain ⟨g, hg, -⟩ := mode1_insert (s.set_eps_r eps) 1 s.src
  rw [times_one] at hg
  have hcn : mode1.compute_normalization env oneEigs s = (Sim.solve_fields env { s.set_eps_r eps with src := g }).2.flux_probe "x" (((3 : ℕ) : ℤ) - 1, 1) 2 := by
    unfold Mode.compute_normalization
    rw [hst]
    show (do
      let src ← mode1.insert_mode oneEigs (s.set_eps_r eps) s.src
      (Sim.solve_fields env { s.set_eps_r eps with src := src }).2.flux_probe "x" (((3 : ℕ) : ℤ) - 1, 1) 2 : Except PyErr ℝ) = _
    rw [hg]
    rfl
  rw [hcn]
  have hk : ∀ x : Sim 3 3, x.pol = .Ez → (Sim.solve_fields env x).2.fields .Ez = some (x.in_plane false x.eps_r (solver_direct env x.A x.rhs)).2.2 ∧
      (Sim.solve_fields env x).2.fields .Hy = some (x.in_plane false x.eps_r (solver_direct env x.A x.rhs)).2.1 ∧ (Sim.solve_fields env x).2.pol = .Ez := by
    intro x hx
    unfold Sim.solve_fields
    rw [if_pos rfl]
    simp only [Sim.store, hx]
    exact ⟨trivial, trivial, trivial⟩
  obtain ⟨k1, k2, k3⟩ := hk { s.set_eps_r eps with src := g } hp
  exact C51_last_column_false _ false 1 2 (by omega) 0 2 uniformFlux_span _ _ k3 k1 k2

/-- A mode on column 2 of a 4 × 3 grid. -/
noncomputable def mode2 : Mode := { mode1 with center := (2, 1) }

/-- The hypotheses of `C54_normalisation_x_partial` hold for `mode2` (the probe is at column 2, averaged with column 3) and the second alternative is the one that happens. -/
example (env : Env) (s : Sim 4 3) : ∃ W, mode2.compute_normalization env oneEigs s = .ok W := by
  obtain ⟨m, eps, -, -, ⟨e, h, -⟩ | ⟨prof, src, t, W, -, -, -, h, -⟩⟩ := C54_normalisation_x_partial env oneEigs mode2 rfl s 2 rfl 0 2 uniformFlux_span 2 3 rfl rfl
  · exfalso
    have hin : Sim.probeInds mode2.direction_normal mode2.center mode2.width = .ok (.x, (2, 3), (0, 2)) := by
      rcases probeInds_cases mode2 with ⟨-, h⟩ | ⟨hd, -⟩ | ⟨hd, -, -⟩
      · have h' : Sim.probeInds mode2.direction_normal mode2.center mode2.width =
            .ok (.x, (2, 2 + 1), (pyInt ((mode1.center.2 : ℝ) - mode1.width / 2), pyInt ((mode1.center.2 : ℝ) + mode1.width / 2))) := h
        rw [h', mode1_ends.1, mode1_ends.2]
        rfl
      · exact absurd hd (by decide)
      · exact absurd rfl hd
    have hrun : mode2.insert_mode oneEigs (s.set_eps_r eps) s.src = placeMode .x s.src (2, 3) (0, 2) (fun _ => 1 * ((1 : ℝ) : ℂ)) := by
      unfold Mode.insert_mode
      rw [hin]
      rfl
    have hsz : sliceLen 4 2 3 * sliceLen 3 0 2 = sliceLen 3 0 2 := by decide
    have := h s.src
    rw [hrun] at this
    unfold placeMode at this
    simp only at this
    rw [dif_pos hsz] at this
    cases this
  · exact ⟨W, h⟩

/-- `setup_modes` with `mode1` succeeds on any 3 × 3 `Ez` simulation (so the hypothesis of `C53_idempotent` is met), and writes 1 on the line. -/
example (env : Env) (s : Sim 3 3) (hp : s.pol = .Ez) : ∃ s1 W, setup_modes env oneEigs [mode1] (s, none) = (.ok (), (s1, W)) ∧ s1.src 1 0 = 1 := by
  obtain ⟨g, hg, h1, -⟩ := mode1_insert s 1 s.src
  rw [times_one] at hg
  refine ⟨{ s with src := g }, some 0, ?_, ?_⟩
  · unfold setup_modes Mode.setup_src
    simp only [(C54_false env s hp).2, hg]
    rfl
  · show g 1 0 = 1
    rw [h1 1 0 (mode1_line 0 (by decide))]
    unfold signedAbs
    simp

end Angler
