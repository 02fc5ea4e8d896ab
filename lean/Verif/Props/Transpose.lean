import Verif.Lemmas.Relabel

/-! # C72: the two axes are treated alike -/

namespace Angler

open Matrix

variable {Nx Ny : ℕ} {α : Type*}

/-! ## Specification -/

/-- An array with its axes exchanged (`numpy.transpose`). -/
def Spec.turn (f : Grid Nx Ny α) : Grid Ny Nx α := fun i j => f j i

/-- The opposite of an array with its axes exchanged. -/
def Spec.turnNeg (f : Grid Nx Ny ℂ) : Grid Ny Nx ℂ := fun i j => -f j i

/-- The three components seen from the other side of the diagonal: the in-plane ones change places and sign. -/
def Spec.turn3 (t : Triple Nx Ny) : Triple Ny Nx := (Spec.turnNeg t.2.1, Spec.turnNeg t.1, Spec.turn t.2.2)

/-- A field dictionary with the axes exchanged. -/
def Spec.turnFields (f : Fields Nx Ny) : Fields Ny Nx
  | .Ez => (f .Ez).map Spec.turn
  | .Hz => (f .Hz).map Spec.turn
  | .Ex => (f .Ey).map Spec.turnNeg
  | .Ey => (f .Ex).map Spec.turnNeg
  | .Hx => (f .Hy).map Spec.turnNeg
  | .Hy => (f .Hx).map Spec.turnNeg

/-- `s'` describes the device `s` with the axes exchanged. -/
structure Spec.Turned (s : Sim Nx Ny) (s' : Sim Ny Nx) : Prop where
  L0 : s'.L0 = s.L0
  dl : s'.dl = s.dl
  omega : s'.omega = s.omega
  NPML : s'.NPML = (s.NPML.2, s.NPML.1)
  pol : s'.pol = s.pol
  eps_r : s'.eps_r = Spec.turn s.eps_r
  src : s'.src = Spec.turn s.src
  nonlinearity : s'.nonlinearity = s.nonlinearity.map fun n => { chi := n.chi, nl_region := Spec.turn n.nl_region, scale := n.scale }
  fields : s'.fields = Spec.turnFields s.fields
  fields_nl : s'.fields_nl = Spec.turnFields s.fields_nl

/-! ## The system -/

/-- Exchanging the axes, as a renaming of cells. -/
abbrev turnσ (Nx Ny : ℕ) : Fin Nx × Fin Ny ≃ Fin Ny × Fin Nx := Equiv.prodComm _ _

theorem relIdx_turn_div (k : Fin (Ny * Nx)) : ((relIdx (turnσ Nx Ny)).symm k).divNat = k.modNat := by
  obtain ⟨⟨i, j⟩, rfl⟩ := finProdFinEquiv.surjective k
  simp [relIdx]

theorem relIdx_turn_mod (k : Fin (Ny * Nx)) : ((relIdx (turnσ Nx Ny)).symm k).modNat = k.divNat := by
  obtain ⟨⟨i, j⟩, rfl⟩ := finProdFinEquiv.surjective k
  simp [relIdx]

theorem relMat_turn_kron (A : Mat Nx ℂ) (B : Mat Ny ℂ) : relMat (turnσ Nx Ny) (kron A B) = kron B A := by
  ext r c
  simp only [relMat, Matrix.submatrix_apply, kron, relIdx_turn_div, relIdx_turn_mod]
  exact mul_comm _ _

theorem createDws_turn (d : Dir) (dx dy : ℝ) : createDws .x d dy dx Ny Nx = relMat (turnσ Nx Ny) (createDws .y d dx dy Nx Ny) ∧
    createDws .y d dy dx Ny Nx = relMat (turnσ Nx Ny) (createDws .x d dx dy Nx Ny) := by
  constructor
  · simp only [createDws]
    split
    · cases d <;> simp only [relMat_smul, relMat_turn_kron]
    · rw [relMat_one]
  · simp only [createDws]
    split
    · cases d <;> simp only [relMat_smul, relMat_turn_kron]
    · rw [relMat_one]

theorem mkDerivs_turn (omega L0 : ℝ) (xr yr : ℝ × ℝ) (NPML : ℕ × ℕ) :
    let D := mkDerivs omega xr yr Nx Ny NPML L0
    mkDerivs omega yr xr Ny Nx (NPML.2, NPML.1) L0 = ⟨relMat (turnσ Nx Ny) D.Dxb, relMat (turnσ Nx Ny) D.Dyb, relMat (turnσ Nx Ny) D.Dyf, relMat (turnσ Nx Ny) D.Dxf⟩ := by
  intro D
  simp only [D, mkDerivs, S_create, relMat_mul, relMat_spdiag_flatten, ← (createDws_turn _ _ _).1, ← (createDws_turn _ _ _).2]
  rfl

/-- The derivative matrices change places and the system matrix is the same up to the renaming. -/
theorem Spec.Turned.system {s : Sim Nx Ny} {s' : Sim Ny Nx} (h : Spec.Turned s s') (hv : s.Valid) (hv' : s'.Valid) :
    s'.derivs = ⟨relMat (turnσ Nx Ny) s.derivs.Dxb, relMat (turnσ Nx Ny) s.derivs.Dyb, relMat (turnσ Nx Ny) s.derivs.Dyf, relMat (turnσ Nx Ny) s.derivs.Dxf⟩ ∧
      s'.A = relMat (turnσ Nx Ny) s.A := by
  have hD : mkDerivs s'.omega s'.xrange s'.yrange Ny Nx s'.NPML s'.L0 =
      ⟨relMat (turnσ Nx Ny) s.derivs.Dxb, relMat (turnσ Nx Ny) s.derivs.Dyb, relMat (turnσ Nx Ny) s.derivs.Dyf, relMat (turnσ Nx Ny) s.derivs.Dxf⟩ := by
    rw [hv'.xr, hv'.yr, h.omega, h.NPML, h.L0, h.dl, mkDerivs_turn, ← hv.xr, ← hv.yr, ← hv.derivs_eq]
  refine ⟨hv'.derivs_eq.trans hD, ?_⟩
  have hA := hv.A_eq
  have hA' := hv'.A_eq
  rw [h.pol, h.eps_r] at hA'
  unfold construct_A at hA hA'
  simp only [← hv.derivs_eq] at hA
  simp only [hD] at hA'
  simp only [h.omega, h.L0] at hA'
  rw [hA, hA']
  cases s.pol with
  | Ez =>
    simp only [relMat_add, relMat_smul, relMat_mul]
    rw [add_comm ((1 / ((MU_0 * s.L0 : ℝ) : ℂ)) • (relMat (turnσ Nx Ny) s.derivs.Dxf * relMat (turnσ Nx Ny) s.derivs.Dxb))]
    congr 2
    exact (relMat_spdiag_flatten (turnσ Nx Ny) fun i j => ((EPSILON_0 * s.L0 : ℝ) : ℂ) * s.eps_r i j).symm
  | Hz =>
    simp only [if_true, relMat_add, relMat_smul, relMat_mul, relMat_one]
    rw [add_comm (relMat (turnσ Nx Ny) s.derivs.Dxf * _ * _)]
    have e1 := relMat_spdiag_flatten (turnσ Nx Ny) fun i j => 1 / grid_average (fun i j => ((EPSILON_0 * s.L0 : ℝ) : ℂ) * s.eps_r i j) .x i j
    have e2 := relMat_spdiag_flatten (turnσ Nx Ny) fun i j => 1 / grid_average (fun i j => ((EPSILON_0 * s.L0 : ℝ) : ℂ) * s.eps_r i j) .y i j
    have e1' : relMat (turnσ Nx Ny) (spdiag fun k => 1 / flatten (grid_average (fun i j => ((EPSILON_0 * s.L0 : ℝ) : ℂ) * s.eps_r i j) .x) k) =
        spdiag fun k => 1 / flatten (grid_average (fun i j => ((EPSILON_0 * s.L0 : ℝ) : ℂ) * Spec.turn s.eps_r i j) .y) k := e1
    have e2' : relMat (turnσ Nx Ny) (spdiag fun k => 1 / flatten (grid_average (fun i j => ((EPSILON_0 * s.L0 : ℝ) : ℂ) * s.eps_r i j) .y) k) =
        spdiag fun k => 1 / flatten (grid_average (fun i j => ((EPSILON_0 * s.L0 : ℝ) : ℂ) * Spec.turn s.eps_r i j) .x) k := e2
    rw [e1', e2']

theorem Spec.Turned.renamed {s : Sim Nx Ny} {s' : Sim Ny Nx} (h : Spec.Turned s s') (hv : s.Valid) (hv' : s'.Valid) : Renamed (turnσ Nx Ny) s s' :=
  ⟨h.omega, h.L0, h.pol, h.eps_r, h.src, h.nonlinearity, (h.system hv hv').2⟩

theorem unflatten_turnNeg {c c' : ℂ} (hc : c' = -c) (v : Vec (Nx * Ny) ℂ) :
    (unflatten (c' • fun k => v ((relIdx (turnσ Nx Ny)).symm k)) : Grid Ny Nx ℂ) = Spec.turnNeg (unflatten (c • v)) := by
  subst hc
  have h := unflatten_relabel (turnσ Nx Ny) v
  funext i j
  have hij : v ((relIdx (turnσ Nx Ny)).symm (finProdFinEquiv (i, j))) = unflatten v j i := congrFun (congrFun h i) j
  show -c * v ((relIdx (turnσ Nx Ny)).symm (finProdFinEquiv (i, j))) = -(c * unflatten v j i)
  rw [hij, neg_mul]

theorem Spec.Turned.in_plane {s : Sim Nx Ny} {s' : Sim Ny Nx} (h : Spec.Turned s s') (hv : s.Valid) (hv' : s'.Valid) (avg : Bool) (eps : Grid Nx Ny ℂ) (X : Vec (Nx * Ny) ℂ) :
    s'.in_plane avg (Spec.turn eps) (fun k => X ((relIdx (turnσ Nx Ny)).symm k)) = Spec.turn3 (s.in_plane avg eps X) := by
  obtain ⟨hd, -⟩ := h.system hv hv'
  have hX : (unflatten (fun k => X ((relIdx (turnσ Nx Ny)).symm k)) : Grid Ny Nx ℂ) = Spec.turn (unflatten X) := unflatten_relabel (turnσ Nx Ny) X
  unfold Sim.in_plane
  rw [h.pol]
  cases s.pol with
  | Ez =>
    simp only [hd, h.L0, h.omega, relMat_mulVec, hX]
    exact Prod.ext (unflatten_turnNeg (by ring) _) (Prod.ext (unflatten_turnNeg (by ring) _) rfl)
  | Hz =>
    have hxy : (Sim.eps_xy s.L0 avg (Spec.turn eps) : Vec (Ny * Nx) ℂ × Vec (Ny * Nx) ℂ) =
        (fun k => (Sim.eps_xy s.L0 avg eps).2 ((relIdx (turnσ Nx Ny)).symm k), fun k => (Sim.eps_xy s.L0 avg eps).1 ((relIdx (turnσ Nx Ny)).symm k)) := by
      unfold Sim.eps_xy
      cases avg
      · have := flatten_relabel (turnσ Nx Ny) fun i j => ((EPSILON_0 * s.L0 : ℝ) : ℂ) * eps i j
        exact Prod.ext this this
      · exact Prod.ext (flatten_relabel (turnσ Nx Ny) (grid_average (fun i j => ((EPSILON_0 * s.L0 : ℝ) : ℂ) * eps i j) .y))
          (flatten_relabel (turnσ Nx Ny) (grid_average (fun i j => ((EPSILON_0 * s.L0 : ℝ) : ℂ) * eps i j) .x))
    simp only [hd, h.L0, h.omega, hxy, hX, ← relMat_spdiag (turnσ Nx Ny) (fun k => 1 / _), ← relMat_mul, relMat_mulVec]
    exact Prod.ext (unflatten_turnNeg (by ring) _) (Prod.ext (unflatten_turnNeg (by ring) _) rfl)

theorem store_turn (p : Pol) (f : Fields Nx Ny) (t : Triple Nx Ny) : Sim.store p (Spec.turnFields f) (Spec.turn3 t) = Spec.turnFields (Sim.store p f t) := by
  funext c
  cases p <;> cases c <;> rfl

theorem Spec.Turned.run {s : Sim Nx Ny} {s' : Sim Ny Nx} (h : Spec.Turned s s') (hv : s.Valid) (hv' : s'.Valid) (hA : s.A.det ≠ 0) (hdet : ∀ F, (bornMat s F).det ≠ 0)
    (hjac : s.pol = .Ez → ∀ F, Spec.JacRegular s F) : RenamedRun (turnσ Nx Ny) Spec.turn3 Spec.turnFields s s' where
  data := h.renamed hv hv'
  plane := h.in_plane hv hv' false
  store := store_turn s.pol
  comp f := by cases s.pol <;> rfl
  fields := h.fields
  fields_nl := h.fields_nl
  regular := hA
  regular_nl := hdet
  regular_jac := hjac

/-! ## Solves -/

/-- **C72, linear solves.** Exchanging the axes of a device (arrays transposed, absorbing layers swapped) exchanges the axes of the fields: returned and stored. -/
theorem C72_linear (env : Env) (he : env.Exact) (s : Sim Nx Ny) (s' : Sim Ny Nx) (h : Spec.Turned s s') (hv : s.Valid) (hv' : s'.Valid) (hdet : s.A.det ≠ 0) (avg : Bool) :
    (s'.solve_fields env false avg).1 = (s.solve_fields env false avg).1.map Spec.turn3 ∧ Spec.Turned (s.solve_fields env false avg).2 (s'.solve_fields env false avg).2 := by
  have ht : s'.in_plane avg s'.eps_r (solver_direct env s'.A s'.rhs) = Spec.turn3 (s.in_plane avg s.eps_r (solver_direct env s.A s.rhs)) := by
    rw [(h.renamed hv hv').solution he hdet, h.eps_r, h.in_plane hv hv']
  simp only [Sim.solve_fields, if_true, ht]
  refine ⟨rfl, { h with fields := ?_ }⟩
  rw [h.pol, h.fields, store_turn]

/-- **C72, Kerr solves.** With every solver string, threshold, iteration limit and starting field, the device with exchanged axes gives the same outcome: the same exception, or the
exchanged fields with the same convergence history; the stored fields are exchanged too. -/
theorem C72_nonlinear (env : Env) (he : env.Exact) (s : Sim Nx Ny) (s' : Sim Ny Nx) (h : Spec.Turned s s') (hv : s.Valid) (hv' : s'.Valid)
    (hA : s.A.det ≠ 0) (hdet : ∀ F, (bornMat s F).det ≠ 0) (hjac : s.pol = .Ez → ∀ F, Spec.JacRegular s F) (E : Option (Grid Nx Ny ℂ)) (solver : NlSolver) (thr : ℝ) (n : ℕ) :
    (solve_fields_nl env s' (E.map Spec.turn) solver thr n).1 =
        (solve_fields_nl env s E solver thr n).1.map (fun r => ⟨Spec.turnNeg r.Fy, Spec.turnNeg r.Fx, Spec.turn r.Fz, r.conv⟩) ∧
      Spec.turnFields (solve_fields_nl env s E solver thr n).2.fields = (solve_fields_nl env s' (E.map Spec.turn) solver thr n).2.fields ∧
      Spec.turnFields (solve_fields_nl env s E solver thr n).2.fields_nl = (solve_fields_nl env s' (E.map Spec.turn) solver thr n).2.fields_nl := by
  obtain ⟨h1, h2⟩ := (RenamedRun.covariant he (turnσ Nx Ny) Spec.turn3 Spec.turnFields fun _ => rfl).solve_nl (h.run hv hv' hA hdet hjac) E solver thr n
  exact ⟨h1, h2.fields.symm, h2.fields_nl.symm⟩

/-! ## Building the device -/

/-- **C72, constructor.** The constructor maps the device with exchanged axes to the simulation with exchanged axes, or rejects both. -/
theorem C72_init (omega : ℝ) (eps : Grid Nx Ny ℂ) (dl a b : ℝ) (pol : String) (L0 : ℝ) :
    (∃ e, Sim.init omega eps dl (.list [a, b]) pol L0 = .error e ∧ Sim.init omega (Spec.turn eps) dl (.list [b, a]) pol L0 = .error e) ∨
      ∃ s s', Sim.init omega eps dl (.list [a, b]) pol L0 = .ok s ∧ Sim.init omega (Spec.turn eps) dl (.list [b, a]) pol L0 = .ok s' ∧ Spec.Turned s s' := by
  have hc : Sim.check_inputs omega L0 (.list [b, a]) pol = (Sim.check_inputs omega L0 (.list [a, b]) pol).map fun r => ((r.1.2, r.1.1), r.2) := by
    unfold Sim.check_inputs
    simp only
    split_ifs with h1 h2 h3 h4 h5 h6 <;> first | rfl | (exfalso; tauto)
  rcases hc0 : Sim.check_inputs omega L0 (.list [a, b]) pol with e | ⟨np, p⟩
  · rw [hc0] at hc
    refine Or.inl ⟨e, ?_, ?_⟩
    · unfold Sim.init; rw [hc0]; rfl
    · unfold Sim.init; rw [hc]; rfl
  · rw [hc0] at hc
    unfold Sim.init
    rw [hc, hc0]
    exact Or.inr ⟨_, _, rfl, rfl, ⟨rfl, rfl, rfl, rfl, rfl, rfl, rfl, rfl, by funext c; cases c <;> rfl, by funext c; cases c <;> rfl⟩⟩

/-- **C72, nonlinear materials.** Adding the same material on the exchanged region keeps the two simulations related, and is accepted or rejected alike. -/
theorem C72_add_nl (s : Sim Nx Ny) (s' : Sim Ny Nx) (h : Spec.Turned s s') (chi : ℝ) (region : Grid Nx Ny ℝ) (ty : String) (sc : Bool) (m : Option EpsMax) :
    (s'.add_nl chi (Spec.turn region) ty sc m).1 = (s.add_nl chi region ty sc m).1 ∧ Spec.Turned (s.add_nl chi region ty sc m).2 (s'.add_nl chi (Spec.turn region) ty sc m).2 := by
  have key : ∀ (n : Nonlinearity Nx Ny) (n' : Nonlinearity Ny Nx), n' = { chi := n.chi, nl_region := Spec.turn n.nl_region, scale := n.scale } →
      Spec.Turned { s with nonlinearity := s.nonlinearity ++ [n] } { s' with nonlinearity := s'.nonlinearity ++ [n'] } := by
    rintro n n' rfl
    refine ⟨h.L0, h.dl, h.omega, h.NPML, h.pol, h.eps_r, h.src, ?_, h.fields, h.fields_nl⟩
    simp only [h.nonlinearity, List.map_append, List.map_cons, List.map_nil]
  unfold Sim.add_nl Nonlinearity.init
  by_cases ht : ty = "kerr"
  · rw [if_pos ht, if_pos ht]
    cases sc
    · exact ⟨rfl, key _ _ (by rw [h.L0])⟩
    · cases m with
      | none => exact ⟨rfl, h⟩
      | some m => exact ⟨rfl, key _ _ (by rw [h.L0])⟩
  · rw [if_neg ht, if_neg ht]
    exact ⟨rfl, h⟩

/-! ## Measured power -/

theorem bsum_turn {m n p q : ℕ} (f g : ℂ → ℂ → ℝ) (x : Grid m n ℂ) (y : Grid p q ℂ) (x' : Grid n m ℂ) (y' : Grid q p ℂ) (h : ∀ i j k l, g (x' j i) (y' l k) = f (x i j) (y k l)) :
    bsum g x' y' = bsum f x y := by
  unfold bsum
  by_cases hc : BCompat m p ∧ BCompat n q
  · rw [dif_pos hc, dif_pos ⟨hc.2, hc.1⟩, Finset.sum_comm]
    simp only [h]
  · rw [dif_neg hc, dif_neg (fun h' => hc ⟨h'.2, h'.1⟩)]

/-- **C72, measured power.** A probe across `x` at a point reads what a probe across `y` reads at the mirrored point of the device with exchanged axes, and conversely; other direction
strings are rejected on both sides. -/
theorem C72_flux (s : Sim Nx Ny) (s' : Sim Ny Nx) (h : Spec.Turned s s') (c : ℤ × ℤ) (w : ℝ) (nl : Bool) :
    s'.flux_probe "y" (c.2, c.1) w nl = s.flux_probe "x" c w nl ∧ s'.flux_probe "x" (c.2, c.1) w nl = s.flux_probe "y" c w nl ∧
      ∀ dir, dir ≠ "x" → dir ≠ "y" → s'.flux_probe dir (c.2, c.1) w nl = s.flux_probe dir c w nl := by
  have hf : (if nl then s'.fields_nl else s'.fields) = Spec.turnFields (if nl then s.fields_nl else s.fields) := by
    rw [h.fields, h.fields_nl]
    cases nl <;> rfl
  have fin : ∀ (f : Fields Nx Ny) (f' : Fields Ny Nx) c1 c1' c2 c2' (a b : Grid Nx Ny ℂ → Grid Ny Nx ℂ) (K : Grid Nx Ny ℂ → Grid Nx Ny ℂ → Except PyErr ℝ)
      (K' : Grid Ny Nx ℂ → Grid Ny Nx ℂ → Except PyErr ℝ), f' c1' = (f c1).map a → f' c2' = (f c2).map b → (∀ x y, K' (a x) (b y) = K x y) →
      (do let x ← Sim.getField f' c1'; let y ← Sim.getField f' c2'; let S ← K' x y; return s.dl * S : Except PyErr ℝ) =
        (do let x ← Sim.getField f c1; let y ← Sim.getField f c2; let S ← K x y; return s.dl * S : Except PyErr ℝ) := by
    intro f f' c1 c1' c2 c2' a b K K' h1 h2 hK
    unfold Sim.getField
    rw [h1, h2]
    rcases f c1 with _ | x
    · rfl
    · rcases f c2 with _ | y
      · rfl
      · show (do let S ← K' (a x) (b y); return s.dl * S : Except PyErr ℝ) = (do let S ← K x y; return s.dl * S : Except PyErr ℝ)
        rw [hK]
  have hpx : ∀ c : ℤ × ℤ, Sim.probeInds "x" c w = .ok (.x, (c.1, c.1 + 1), (pyInt (c.2 - w / 2), pyInt (c.2 + w / 2))) := fun c => if_pos rfl
  have hpy : ∀ c : ℤ × ℤ, Sim.probeInds "y" c w = .ok (.y, (pyInt (c.1 - w / 2), pyInt (c.1 + w / 2)), (c.2, c.2 + 1)) := fun c => (if_neg (by decide)).trans (if_pos rfl)
  refine ⟨?_, ?_, ?_⟩
  · unfold Sim.flux_probe
    rw [hpx, hpy, hf, h.pol, h.dl]
    generalize (if nl then s.fields_nl else s.fields) = f
    cases s.pol
    · refine fin f (Spec.turnFields f) .Ez .Ez .Hy .Hx Spec.turn Spec.turnNeg _ _ rfl rfl fun x y => bsum_turn _ _ _ _ _ _ fun i j k l => ?_
      show 1 / 2 * (_ * (starRingEnd ℂ) (-_)).re = _
      rw [map_neg, mul_neg, Complex.neg_re, mul_neg, ← neg_mul, ← neg_div]
      rfl
    · refine fin f (Spec.turnFields f) .Hz .Hz .Ey .Ex Spec.turn Spec.turnNeg _ _ rfl rfl fun x y => bsum_turn _ _ _ _ _ _ fun i j k l => ?_
      show -1 / 2 * (-_ * (starRingEnd ℂ) _).re = _
      rw [neg_mul, Complex.neg_re, mul_neg, ← neg_mul, ← neg_div, neg_neg]
      rfl
  · unfold Sim.flux_probe
    rw [hpx, hpy, hf, h.pol, h.dl]
    generalize (if nl then s.fields_nl else s.fields) = f
    cases s.pol
    · refine fin f (Spec.turnFields f) .Ez .Ez .Hx .Hy Spec.turn Spec.turnNeg _ _ rfl rfl fun x y => bsum_turn _ _ _ _ _ _ fun i j k l => ?_
      show -1 / 2 * (_ * (starRingEnd ℂ) (-_)).re = _
      rw [map_neg, mul_neg, Complex.neg_re, mul_neg, ← neg_mul, ← neg_div, neg_neg]
      rfl
    · refine fin f (Spec.turnFields f) .Hz .Hz .Ex .Ey Spec.turn Spec.turnNeg _ _ rfl rfl fun x y => bsum_turn _ _ _ _ _ _ fun i j k l => ?_
      show 1 / 2 * (-_ * (starRingEnd ℂ) _).re = _
      rw [neg_mul, Complex.neg_re, mul_neg, ← neg_mul, ← neg_div]
      rfl
  · intro dir hx hy
    unfold Sim.flux_probe
    simp only [Sim.probeInds, if_neg hx, if_neg hy]
    rfl

/-! ## The hypotheses are met -/

/-- Any simulation with its axes exchanged. -/
noncomputable def toTurn (s : Sim Nx Ny) : Sim Ny Nx :=
  let r := construct_A s.omega (0, Ny * s.dl) (0, Nx * s.dl) (Spec.turn s.eps_r) (s.NPML.2, s.NPML.1) s.pol s.L0
  { L0 := s.L0, omega := s.omega, dl := s.dl, NPML := (s.NPML.2, s.NPML.1), pol := s.pol, xrange := (0, Ny * s.dl), yrange := (0, Nx * s.dl), src := Spec.turn s.src,
    eps_r := Spec.turn s.eps_r, A := r.1, derivs := r.2, fields := Spec.turnFields s.fields, fields_nl := Spec.turnFields s.fields_nl,
    nonlinearity := s.nonlinearity.map fun n => { chi := n.chi, nl_region := Spec.turn n.nl_region, scale := n.scale },
    eps_nl := fun _ _ => 0, dnl_de := fun _ _ => 0, dnl_deps := fun _ _ => 0, Anl := none, rho := none }

theorem toTurn_turned (s : Sim Nx Ny) : Spec.Turned s (toTurn s) := ⟨rfl, rfl, rfl, rfl, rfl, rfl, rfl, rfl, rfl, rfl⟩

theorem toTurn_valid (s : Sim Nx Ny) (hv : s.Valid) : (toTurn s).Valid := ⟨hv.L0_pos, hv.omega_pos, rfl, rfl, rfl, construct_A_derivs _ _ _ _ _ _ _ _⟩

/-- A lossy oblong device with an absorbing layer, turned on its side. -/
example (env : Env) (he : env.Exact) (src : Grid 4 3 ℂ) : let s : Sim 4 3 := fsim 1 (fun _ _ => 2 + Complex.I) src
    ((toTurn s).solve_fields env false false).1 = (s.solve_fields env false false).1.map Spec.turn3 := by
  intro s
  refine (C72_linear env he s _ (toTurn_turned s) (fsim_valid _ _ _) (toTurn_valid s (fsim_valid _ _ _)) (fsim_det (by norm_num) (by norm_num) _ _ _ fun i j => ?_) false).1
  refine le_trans ?_ (Complex.abs_re_le_norm _)
  simp

/-- A Kerr device, with any source, any starting field and any solver. -/
example (env : Env) (he : env.Exact) (src : Grid 2 2 ℂ) (E : Option (Grid 2 2 ℂ)) (solver : NlSolver) (thr : ℝ) (n : ℕ) :
    (solve_fields_nl env (toTurn (psim src)) (E.map Spec.turn) solver thr n).1 =
      (solve_fields_nl env (psim src) E solver thr n).1.map fun r => ⟨Spec.turnNeg r.Fy, Spec.turnNeg r.Fx, Spec.turn r.Fz, r.conv⟩ :=
  (C72_nonlinear env he (psim src) _ (toTurn_turned _) (psim_valid src) (toTurn_valid _ (psim_valid src)) (bornMat_of_zero (psim src) ▸ psim_bornMat_det_all src 0) (psim_bornMat_det_all src) (fun _ => psim_jac_det_all src) E solver thr n).1

end Angler
