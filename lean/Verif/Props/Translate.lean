import Verif.Lemmas.Relabel
import Verif.Props.Utils

/-! # C73: translation along a periodic axis -/

namespace Angler

open Matrix

variable {Nx Ny : ℕ} {α : Type*}

/-! ## Specification -/

/-- `numpy.roll(f, (a, b), axis=(0, 1))`: the array moved by `a` cells along `x` and `b` cells along `y`, what leaves at one end enters at the other. -/
def Spec.roll (a b : ℕ) (f : Grid Nx Ny α) : Grid Nx Ny α := fun i j => f (Spec.prev^[a] i) (Spec.prev^[b] j)

/-- Three components moved. -/
def Spec.roll3 (a b : ℕ) (t : Triple Nx Ny) : Triple Nx Ny := (Spec.roll a b t.1, Spec.roll a b t.2.1, Spec.roll a b t.2.2)

/-- A field dictionary moved. -/
def Spec.rollFields (a b : ℕ) (f : Fields Nx Ny) : Fields Nx Ny := fun c => (f c).map (Spec.roll a b)

/-- `s'` describes the device of `s` moved by `a` cells along `x` and `b` cells along `y`. -/
structure Spec.Moved (a b : ℕ) (s s' : Sim Nx Ny) : Prop where
  L0 : s'.L0 = s.L0
  dl : s'.dl = s.dl
  omega : s'.omega = s.omega
  NPML : s'.NPML = s.NPML
  pol : s'.pol = s.pol
  eps_r : s'.eps_r = Spec.roll a b s.eps_r
  src : s'.src = Spec.roll a b s.src
  nonlinearity : s'.nonlinearity = s.nonlinearity.map fun n => { chi := n.chi, nl_region := Spec.roll a b n.nl_region, scale := n.scale }
  fields : s'.fields = Spec.rollFields a b s.fields
  fields_nl : s'.fields_nl = Spec.rollFields a b s.fields_nl

/-- There is no absorbing layer across the direction of motion. -/
def Spec.Free (a b : ℕ) (NPML : ℕ × ℕ) : Prop := (a = 0 ∨ NPML.1 = 0) ∧ (b = 0 ∨ NPML.2 = 0)

/-! ## The system -/

/-- Moving along a ring. -/
def ringRoll (n a : ℕ) : Fin n ≃ Fin n := ⟨Spec.next^[a], Spec.prev^[a], Function.LeftInverse.iterate prev_next a, Function.RightInverse.iterate next_prev a⟩

/-- Moving the cells. -/
abbrev rollσ (Nx Ny a b : ℕ) : Fin Nx × Fin Ny ≃ Fin Nx × Fin Ny := Equiv.prodCongr (ringRoll Nx a) (ringRoll Ny b)

theorem relabel_roll (a b : ℕ) (f : Grid Nx Ny α) : relabel (rollσ Nx Ny a b) f = Spec.roll a b f := rfl

theorem prev_iter_next {n : ℕ} (a : ℕ) (i : Fin n) : Spec.prev^[a] (Spec.next i) = Spec.next (Spec.prev^[a] i) :=
  (Function.Commute.iterate_left (fun j => by rw [prev_next, next_prev] : Function.Commute (Spec.prev (n := n)) Spec.next) a) i

theorem prev_iter_prev {n : ℕ} (a : ℕ) (i : Fin n) : Spec.prev^[a] (Spec.prev i) = Spec.prev (Spec.prev^[a] i) := Function.Commute.iterate_left (Function.Commute.refl _) a i

/-- The difference operators do not see the motion. -/
theorem createDws_roll (a b : ℕ) (w : Axis) (d : Dir) (dx dy : ℝ) : relMat (rollσ Nx Ny a b) (createDws w d dx dy Nx Ny) = createDws w d dx dy Nx Ny := by
  cases w with
  | x =>
    by_cases h : 1 < Nx
    · refine (eq_relMat _ fun f g hg => ?_).symm
      cases d
      · rw [createDws_xf _ _ h] at hg ⊢
        rw [← flatten_injective hg]
        congr 1
        funext i j
        simp only [relabel_roll, Spec.fwdX, Spec.roll, prev_iter_next]
      · rw [createDws_xb _ _ h] at hg ⊢
        rw [← flatten_injective hg]
        congr 1
        funext i j
        simp only [relabel_roll, Spec.bwdX, Spec.roll, prev_iter_prev]
    · simp only [createDws, if_neg h, relMat_one]
  | y =>
    by_cases h : 1 < Ny
    · refine (eq_relMat _ fun f g hg => ?_).symm
      cases d
      · rw [createDws_yf _ _ h] at hg ⊢
        rw [← flatten_injective hg]
        congr 1
        funext i j
        simp only [relabel_roll, Spec.fwdY, Spec.roll, prev_iter_next]
      · rw [createDws_yb _ _ h] at hg ⊢
        rw [← flatten_injective hg]
        congr 1
        funext i j
        simp only [relabel_roll, Spec.bwdY, Spec.roll, prev_iter_prev]
    · simp only [createDws, if_neg h, relMat_one]

theorem S_create_roll (a b : ℕ) (omega L0 : ℝ) (xr yr : ℝ × ℝ) (NPML : ℕ × ℕ) (hf : Spec.Free a b NPML) :
    let S := S_create omega L0 Nx Ny NPML xr yr
    relMat (rollσ Nx Ny a b) S.xf = S.xf ∧ relMat (rollσ Nx Ny a b) S.xb = S.xb ∧ relMat (rollσ Nx Ny a b) S.yf = S.yf ∧ relMat (rollσ Nx Ny a b) S.yb = S.yb := by
  intro S
  have key : ∀ (n k P : ℕ) (r : ℝ × ℝ) (d : Dir) (i : Fin n), (k = 0 ∨ P = 0) → create_sfactor r L0 d omega n P (Spec.prev^[k] i) = create_sfactor r L0 d omega n P i := by
    intro n k P r d i h
    rcases h with rfl | rfl
    · rfl
    · simp only [create_sfactor, Nat.lt_one_iff, if_true]
  refine ⟨?_, ?_, ?_, ?_⟩ <;>
  · simp only [S, S_create, relMat_spdiag_flatten, relabel_roll]
    congr 2
    funext i j
    simp only [Spec.roll, key _ _ _ _ _ _ hf.1, key _ _ _ _ _ _ hf.2]

theorem mkDerivs_roll (a b : ℕ) (omega L0 : ℝ) (xr yr : ℝ × ℝ) (NPML : ℕ × ℕ) (hf : Spec.Free a b NPML) :
    let D := mkDerivs omega xr yr Nx Ny NPML L0
    relMat (rollσ Nx Ny a b) D.Dyb = D.Dyb ∧ relMat (rollσ Nx Ny a b) D.Dxb = D.Dxb ∧ relMat (rollσ Nx Ny a b) D.Dxf = D.Dxf ∧ relMat (rollσ Nx Ny a b) D.Dyf = D.Dyf := by
  intro D
  obtain ⟨h1, h2, h3, h4⟩ := S_create_roll (Nx := Nx) (Ny := Ny) a b omega L0 xr yr NPML hf
  refine ⟨?_, ?_, ?_, ?_⟩
  · simp only [D, mkDerivs, relMat_mul, createDws_roll, h4]
  · simp only [D, mkDerivs, relMat_mul, createDws_roll, h2]
  · simp only [D, mkDerivs, relMat_mul, createDws_roll, h1]
  · simp only [D, mkDerivs, relMat_mul, createDws_roll, h3]

theorem Spec.Moved.system {a b : ℕ} {s s' : Sim Nx Ny} (h : Spec.Moved a b s s') (hv : s.Valid) (hv' : s'.Valid) (hf : Spec.Free a b s.NPML) :
    s'.derivs = s.derivs ∧ s'.A = relMat (rollσ Nx Ny a b) s.A := by
  have hD : mkDerivs s'.omega s'.xrange s'.yrange Nx Ny s'.NPML s'.L0 = s.derivs := by
    rw [hv'.xr, hv'.yr, h.omega, h.NPML, h.L0, h.dl, ← hv.xr, ← hv.yr, ← hv.derivs_eq]
  refine ⟨hv'.derivs_eq.trans hD, ?_⟩
  obtain ⟨h1, h2, h3, h4⟩ := mkDerivs_roll (Nx := Nx) (Ny := Ny) a b s.omega s.L0 s.xrange s.yrange s.NPML hf
  rw [← hv.derivs_eq] at h1 h2 h3 h4
  have hA := hv.A_eq
  have hA' := hv'.A_eq
  rw [h.pol, h.eps_r] at hA'
  unfold construct_A at hA hA'
  simp only [← hv.derivs_eq] at hA
  simp only [hD] at hA'
  simp only [h.omega, h.L0] at hA'
  rw [hA, hA']
  cases s.pol with
  | Ez =>
    simp only [relMat_add, relMat_smul, relMat_mul, h1, h2, h3, h4]
    congr 2
    exact (relMat_spdiag_flatten (rollσ Nx Ny a b) fun i j => ((EPSILON_0 * s.L0 : ℝ) : ℂ) * s.eps_r i j).symm
  | Hz =>
    simp only [if_true, relMat_add, relMat_smul, relMat_mul, relMat_one, h1, h2, h3, h4]
    have e : ∀ w, relMat (rollσ Nx Ny a b) (spdiag fun k => 1 / flatten (grid_average (fun i j => ((EPSILON_0 * s.L0 : ℝ) : ℂ) * s.eps_r i j) w) k) =
        spdiag fun k => 1 / flatten (grid_average (fun i j => ((EPSILON_0 * s.L0 : ℝ) : ℂ) * Spec.roll a b s.eps_r i j) w) k := by
      intro w
      refine (relMat_spdiag_flatten (rollσ Nx Ny a b) fun i j => 1 / grid_average (fun i j => ((EPSILON_0 * s.L0 : ℝ) : ℂ) * s.eps_r i j) w i j).trans ?_
      congr 1
      refine flat_ext fun i j => ?_
      rw [flatten_pair, flatten_pair, relabel_roll]
      cases w <;> simp only [Spec.roll, grid_average, rollBack_eq_prev, prev_iter_prev]
    rw [e, e]

theorem Spec.Moved.renamed {a b : ℕ} {s s' : Sim Nx Ny} (h : Spec.Moved a b s s') (hv : s.Valid) (hv' : s'.Valid) (hf : Spec.Free a b s.NPML) : Renamed (rollσ Nx Ny a b) s s' :=
  ⟨h.omega, h.L0, h.pol, h.eps_r, h.src, h.nonlinearity, (h.system hv hv' hf).2⟩

theorem Spec.Moved.in_plane {a b : ℕ} {s s' : Sim Nx Ny} (h : Spec.Moved a b s s') (hv : s.Valid) (hv' : s'.Valid) (hf : Spec.Free a b s.NPML) (avg : Bool) (eps : Grid Nx Ny ℂ)
    (X : Vec (Nx * Ny) ℂ) : s'.in_plane avg (Spec.roll a b eps) (fun k => X ((relIdx (rollσ Nx Ny a b)).symm k)) = Spec.roll3 a b (s.in_plane avg eps X) := by
  obtain ⟨hd, -⟩ := h.system hv hv' hf
  obtain ⟨h1, h2, h3, h4⟩ := mkDerivs_roll (Nx := Nx) (Ny := Ny) a b s.omega s.L0 s.xrange s.yrange s.NPML hf
  rw [← hv.derivs_eq] at h1 h2
  have hX : (unflatten (fun k => X ((relIdx (rollσ Nx Ny a b)).symm k)) : Grid Nx Ny ℂ) = Spec.roll a b (unflatten X) := unflatten_relabel (rollσ Nx Ny a b) X
  have hc : ∀ (c : ℂ) (v : Vec (Nx * Ny) ℂ), (unflatten (c • fun k => v ((relIdx (rollσ Nx Ny a b)).symm k)) : Grid Nx Ny ℂ) = Spec.roll a b (unflatten (c • v)) :=
    fun c v => unflatten_relabel (rollσ Nx Ny a b) (c • v)
  unfold Sim.in_plane
  rw [h.pol]
  cases s.pol with
  | Ez =>
    simp only [hd, h.L0, h.omega, hX]
    rw [← h1, ← h2, relMat_mulVec, relMat_mulVec, h1, h2]
    exact Prod.ext (hc _ _) (Prod.ext (hc _ _) rfl)
  | Hz =>
    have hxy : (Sim.eps_xy s.L0 avg (Spec.roll a b eps) : Vec (Nx * Ny) ℂ × Vec (Nx * Ny) ℂ) =
        (fun k => (Sim.eps_xy s.L0 avg eps).1 ((relIdx (rollσ Nx Ny a b)).symm k), fun k => (Sim.eps_xy s.L0 avg eps).2 ((relIdx (rollσ Nx Ny a b)).symm k)) := by
      have e : ∀ w, flatten (grid_average (fun i j => ((EPSILON_0 * s.L0 : ℝ) : ℂ) * Spec.roll a b eps i j) w) =
          fun k => flatten (grid_average (fun i j => ((EPSILON_0 * s.L0 : ℝ) : ℂ) * eps i j) w) ((relIdx (rollσ Nx Ny a b)).symm k) := by
        intro w
        rw [← flatten_relabel, relabel_roll]
        refine flat_ext fun i j => ?_
        rw [flatten_pair, flatten_pair]
        cases w <;> simp only [Spec.roll, grid_average, rollBack_eq_prev, prev_iter_prev]
      unfold Sim.eps_xy
      cases avg
      · have := flatten_relabel (rollσ Nx Ny a b) fun i j => ((EPSILON_0 * s.L0 : ℝ) : ℂ) * eps i j
        exact Prod.ext this this
      · exact Prod.ext (e .x) (e .y)
    have k1 : ∀ v : Vec (Nx * Ny) ℂ, (spdiag (fun k => 1 / v ((relIdx (rollσ Nx Ny a b)).symm k)) * s.derivs.Dyb) *ᵥ (fun k => X ((relIdx (rollσ Nx Ny a b)).symm k)) =
        fun k => ((spdiag (fun k => 1 / v k) * s.derivs.Dyb) *ᵥ X) ((relIdx (rollσ Nx Ny a b)).symm k) := by
      intro v
      rw [← relMat_spdiag (rollσ Nx Ny a b) (fun k => 1 / v k), ← h1, ← relMat_mul, relMat_mulVec, h1]
    have k2 : ∀ v : Vec (Nx * Ny) ℂ, (spdiag (fun k => 1 / v ((relIdx (rollσ Nx Ny a b)).symm k)) * s.derivs.Dxb) *ᵥ (fun k => X ((relIdx (rollσ Nx Ny a b)).symm k)) =
        fun k => ((spdiag (fun k => 1 / v k) * s.derivs.Dxb) *ᵥ X) ((relIdx (rollσ Nx Ny a b)).symm k) := by
      intro v
      rw [← relMat_spdiag (rollσ Nx Ny a b) (fun k => 1 / v k), ← h2, ← relMat_mul, relMat_mulVec, h2]
    simp only [hd, h.L0, h.omega, hxy, hX, k1, k2]
    exact Prod.ext (hc _ _) (Prod.ext (hc _ _) rfl)

theorem store_roll (a b : ℕ) (p : Pol) (f : Fields Nx Ny) (t : Triple Nx Ny) : Sim.store p (Spec.rollFields a b f) (Spec.roll3 a b t) = Spec.rollFields a b (Sim.store p f t) := by
  funext c
  cases p <;> cases c <;> rfl

/-! ## Solves -/

/-- **C73, linear solves.** Moving a device along an axis without absorbing layer moves its fields, returned and stored, by as many cells; what leaves at one end enters at the other. -/
theorem C73_linear (env : Env) (he : env.Exact) (a b : ℕ) (s s' : Sim Nx Ny) (h : Spec.Moved a b s s') (hv : s.Valid) (hv' : s'.Valid) (hf : Spec.Free a b s.NPML) (hdet : s.A.det ≠ 0)
    (avg : Bool) :
    (s'.solve_fields env false avg).1 = (s.solve_fields env false avg).1.map (Spec.roll3 a b) ∧ Spec.Moved a b (s.solve_fields env false avg).2 (s'.solve_fields env false avg).2 := by
  have ht : s'.in_plane avg s'.eps_r (solver_direct env s'.A s'.rhs) = Spec.roll3 a b (s.in_plane avg s.eps_r (solver_direct env s.A s.rhs)) := by
    rw [(h.renamed hv hv' hf).solution he hdet, h.eps_r, h.in_plane hv hv' hf]
  simp only [Sim.solve_fields, if_true, ht]
  refine ⟨rfl, { h with fields := ?_ }⟩
  rw [h.pol, h.fields, store_roll]

/-- **C73, Kerr solves.** With every solver string, threshold, iteration limit and starting field, the moved device gives the same outcome: the same exception, or the moved fields with
the same convergence history; the stored fields are moved too. -/
theorem C73_nonlinear (env : Env) (he : env.Exact) (a b : ℕ) (s s' : Sim Nx Ny) (h : Spec.Moved a b s s') (hv : s.Valid) (hv' : s'.Valid) (hf : Spec.Free a b s.NPML)
    (hA : s.A.det ≠ 0) (hdet : ∀ F, (bornMat s F).det ≠ 0) (hjac : s.pol = .Ez → ∀ F, Spec.JacRegular s F) (E : Option (Grid Nx Ny ℂ)) (solver : NlSolver) (thr : ℝ) (n : ℕ) :
    (solve_fields_nl env s' (E.map (Spec.roll a b)) solver thr n).1 =
        (solve_fields_nl env s E solver thr n).1.map (fun r => ⟨Spec.roll a b r.Fx, Spec.roll a b r.Fy, Spec.roll a b r.Fz, r.conv⟩) ∧
      Spec.rollFields a b (solve_fields_nl env s E solver thr n).2.fields = (solve_fields_nl env s' (E.map (Spec.roll a b)) solver thr n).2.fields ∧
      Spec.rollFields a b (solve_fields_nl env s E solver thr n).2.fields_nl = (solve_fields_nl env s' (E.map (Spec.roll a b)) solver thr n).2.fields_nl := by
  have hR : RenamedRun (rollσ Nx Ny a b) (Spec.roll3 a b) (Spec.rollFields a b) s s' :=
    { data := h.renamed hv hv' hf, plane := h.in_plane hv hv' hf false, store := store_roll a b s.pol, comp := fun f => by cases s.pol <;> rfl, fields := h.fields, fields_nl := h.fields_nl,
      regular := hA, regular_nl := hdet, regular_jac := hjac }
  obtain ⟨h1, h2⟩ := (RenamedRun.covariant he (rollσ Nx Ny a b) (Spec.roll3 a b) (Spec.rollFields a b) fun _ => rfl).solve_nl hR E solver thr n
  exact ⟨h1, h2.fields.symm, h2.fields_nl.symm⟩

/-! ## The hypotheses are met -/

/-- Any simulation, with its device moved. -/
noncomputable def toRoll (a b : ℕ) (s : Sim Nx Ny) : Sim Nx Ny :=
  let r := construct_A s.omega s.xrange s.yrange (Spec.roll a b s.eps_r) s.NPML s.pol s.L0
  { s with
    src := Spec.roll a b s.src, eps_r := Spec.roll a b s.eps_r, A := r.1, derivs := r.2, fields := Spec.rollFields a b s.fields, fields_nl := Spec.rollFields a b s.fields_nl,
    nonlinearity := s.nonlinearity.map fun n => { chi := n.chi, nl_region := Spec.roll a b n.nl_region, scale := n.scale } }

theorem toRoll_moved (a b : ℕ) (s : Sim Nx Ny) : Spec.Moved a b s (toRoll a b s) := ⟨rfl, rfl, rfl, rfl, rfl, rfl, rfl, rfl, rfl, rfl⟩

theorem toRoll_valid (a b : ℕ) (s : Sim Nx Ny) (hv : s.Valid) : (toRoll a b s).Valid := ⟨hv.L0_pos, hv.omega_pos, hv.xr, hv.yr, rfl, construct_A_derivs _ _ _ _ _ _ _ _⟩

/-- A lossy device without absorbing layers, moved by two cells along `x` and one along `y`. -/
example (env : Env) (he : env.Exact) (src : Grid 4 3 ℂ) : let s : Sim 4 3 := fsim 0 (fun _ _ => 2 + Complex.I) src
    ((toRoll 2 1 s).solve_fields env false false).1 = (s.solve_fields env false false).1.map (Spec.roll3 2 1) := by
  intro s
  refine (C73_linear env he 2 1 s _ (toRoll_moved 2 1 s) (fsim_valid _ _ _) (toRoll_valid 2 1 s (fsim_valid _ _ _)) ⟨Or.inr rfl, Or.inr rfl⟩ (fsim_det (by norm_num) (by norm_num) _ _ _ fun i j => ?_) false).1
  refine le_trans ?_ (Complex.abs_re_le_norm _)
  simp

/-- A Kerr device, with any source, any starting field and any solver. -/
example (env : Env) (he : env.Exact) (src : Grid 2 2 ℂ) (E : Option (Grid 2 2 ℂ)) (solver : NlSolver) (thr : ℝ) (n : ℕ) :
    (solve_fields_nl env (toRoll 1 0 (psim src)) (E.map (Spec.roll 1 0)) solver thr n).1 =
      (solve_fields_nl env (psim src) E solver thr n).1.map fun r => ⟨Spec.roll 1 0 r.Fx, Spec.roll 1 0 r.Fy, Spec.roll 1 0 r.Fz, r.conv⟩ :=
  (C73_nonlinear env he 1 0 (psim src) _ (toRoll_moved 1 0 _) (psim_valid src) (toRoll_valid 1 0 _ (psim_valid src)) ⟨Or.inr rfl, Or.inl rfl⟩ (bornMat_of_zero (psim src) ▸ psim_bornMat_det_all src 0)
    (psim_bornMat_det_all src) (fun _ => psim_jac_det_all src) E solver thr n).1

end Angler
