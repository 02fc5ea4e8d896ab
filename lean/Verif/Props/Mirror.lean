import Verif.Lemmas.Relabel
import Verif.Props.Utils
import Verif.Props.Maxwell
import Verif.Props.Transpose
import Verif.Props.Solvable

/-! # C74: mirror images -/

namespace Angler

open Matrix

variable {Nx Ny : ℕ} {α : Type*}

/-! ## Specification -/

/-- The cell opposite to `i` on a ring, seen from cell 0. -/
def Spec.opp {n : ℕ} (i : Fin n) : Fin n := ⟨(n - i) % n, Nat.mod_lt _ (Nat.lt_of_le_of_lt (Nat.zero_le _) i.2)⟩

/-- The mirror image, along `x`, of an array sampled at the cells: `x ↦ -x` maps cell `i` to cell `-i`. -/
def Spec.mirror (f : Grid Nx Ny α) : Grid Nx Ny α := fun i j => f (Spec.opp i) j

/-- The mirror image of a component sampled half a cell to the left of the cells, which changes sign: `x ↦ -x` maps position `i - ½` to position `(1 - i) - ½`. -/
def Spec.mirrorHalf (f : Grid Nx Ny ℂ) : Grid Nx Ny ℂ := fun i j => -f (Spec.next (Spec.opp i)) j

/-- The mirror image of the three components: those along `x` and `z` are sampled at the cells (in this direction), the one along `y` between them. -/
def Spec.mirror3 (t : Triple Nx Ny) : Triple Nx Ny := (Spec.mirror t.1, Spec.mirrorHalf t.2.1, Spec.mirror t.2.2)

/-- A field dictionary in the mirror. -/
def Spec.mirrorFields (f : Fields Nx Ny) : Fields Nx Ny
  | .Ey => (f .Ey).map Spec.mirrorHalf
  | .Hy => (f .Hy).map Spec.mirrorHalf
  | c => (f c).map Spec.mirror

/-- `s'` describes the mirror image of the device of `s`. -/
structure Spec.Mirrored (s s' : Sim Nx Ny) : Prop where
  L0 : s'.L0 = s.L0
  dl : s'.dl = s.dl
  omega : s'.omega = s.omega
  NPML : s'.NPML = s.NPML
  pol : s'.pol = s.pol
  eps_r : s'.eps_r = Spec.mirror s.eps_r
  src : s'.src = Spec.mirror s.src
  nonlinearity : s'.nonlinearity = s.nonlinearity.map fun n => { chi := n.chi, nl_region := Spec.mirror n.nl_region, scale := n.scale }
  fields : s'.fields = Spec.mirrorFields s.fields
  fields_nl : s'.fields_nl = Spec.mirrorFields s.fields_nl

/-! ## The system -/

theorem opp_opp {n : ℕ} (i : Fin n) : Spec.opp (Spec.opp i) = i := by
  apply Fin.ext
  have hi := i.2
  simp only [Spec.opp]
  rcases Nat.eq_zero_or_pos (i : ℕ) with h | h
  · rw [h, Nat.sub_zero, Nat.mod_self, Nat.sub_zero, Nat.mod_self]
  · rw [Nat.mod_eq_of_lt (by omega : n - (i : ℕ) < n), Nat.mod_eq_of_lt (by omega)]
    omega

theorem opp_next {n : ℕ} (i : Fin n) : Spec.opp (Spec.next i) = Spec.prev (Spec.opp i) := by
  apply Fin.ext
  have hi := i.2
  simp only [Spec.opp, Spec.next, Spec.prev]
  rcases Nat.eq_zero_or_pos (i : ℕ) with h | h
  · rw [h, Nat.sub_zero, Nat.mod_self, Nat.zero_add, Nat.zero_add, Nat.mod_eq_of_lt (by omega : n - 1 < n)]
    rcases Nat.lt_or_ge 1 n with h1 | h1
    · rw [Nat.mod_eq_of_lt h1, Nat.mod_eq_of_lt (by omega)]
    · obtain rfl : n = 1 := by omega
      rfl
  · rw [Nat.mod_eq_of_lt (by omega : n - (i : ℕ) < n), show n - (i : ℕ) + (n - 1) = n - i - 1 + n by omega, Nat.add_mod_right, Nat.mod_eq_of_lt (by omega : n - (i : ℕ) - 1 < n)]
    rcases Nat.lt_or_ge ((i : ℕ) + 1) n with h1 | h1
    · rw [Nat.mod_eq_of_lt h1, Nat.mod_eq_of_lt (by omega)]
      omega
    · rw [show (i : ℕ) + 1 = n by omega, Nat.mod_self, Nat.sub_zero, Nat.mod_self]
      omega

theorem opp_prev {n : ℕ} (i : Fin n) : Spec.opp (Spec.prev i) = Spec.next (Spec.opp i) := by
  have h := opp_next (Spec.prev i)
  rw [next_prev] at h
  rw [h, next_prev]

/-- The mirror, as a renaming of cells. -/
abbrev mirrorσ (Nx Ny : ℕ) : Fin Nx × Fin Ny ≃ Fin Nx × Fin Ny := Equiv.prodCongr ⟨Spec.opp, Spec.opp, opp_opp, opp_opp⟩ (Equiv.refl _)

theorem relabel_mirror (f : Grid Nx Ny α) : relabel (mirrorσ Nx Ny) f = Spec.mirror f := rfl

theorem createDws_mirror_y (d : Dir) (dx dy : ℝ) : relMat (mirrorσ Nx Ny) (createDws .y d dx dy Nx Ny) = createDws .y d dx dy Nx Ny := by
  by_cases h : 1 < Ny
  · refine (eq_relMat _ fun f g hg => ?_).symm
    cases d
    · rw [createDws_yf _ _ h] at hg ⊢
      rw [← flatten_injective hg]
      rfl
    · rw [createDws_yb _ _ h] at hg ⊢
      rw [← flatten_injective hg]
      rfl
  · simp only [createDws, if_neg h, relMat_one]

theorem createDws_mirror_x (h : 1 < Nx) (dx dy : ℝ) : relMat (mirrorσ Nx Ny) (createDws .x .f dx dy Nx Ny) = -createDws .x .b dx dy Nx Ny ∧
    relMat (mirrorσ Nx Ny) (createDws .x .b dx dy Nx Ny) = -createDws .x .f dx dy Nx Ny := by
  constructor
  · refine (eq_relMat _ fun f g hg => ?_).symm
    rw [createDws_xf _ _ h] at hg
    rw [Matrix.neg_mulVec, createDws_xb _ _ h, ← flatten_injective hg]
    refine flat_ext fun i j => ?_
    rw [Pi.neg_apply, flatten_pair, flatten_pair]
    simp only [relabel_mirror, Spec.mirror, Spec.bwdX, Spec.fwdX, opp_prev]
    ring
  · refine (eq_relMat _ fun f g hg => ?_).symm
    rw [createDws_xb _ _ h] at hg
    rw [Matrix.neg_mulVec, createDws_xf _ _ h, ← flatten_injective hg]
    refine flat_ext fun i j => ?_
    rw [Pi.neg_apply, flatten_pair, flatten_pair]
    simp only [relabel_mirror, Spec.mirror, Spec.bwdX, Spec.fwdX, opp_next]
    ring

theorem mkDerivs_mirror (hx : 1 < Nx) (omega L0 : ℝ) (xr yr : ℝ × ℝ) (NPML : ℕ × ℕ) (hP : NPML.1 = 0) :
    let D := mkDerivs omega xr yr Nx Ny NPML L0
    relMat (mirrorσ Nx Ny) D.Dyb = D.Dyb ∧ relMat (mirrorσ Nx Ny) D.Dxb = -D.Dxf ∧ relMat (mirrorσ Nx Ny) D.Dxf = -D.Dxb ∧ relMat (mirrorσ Nx Ny) D.Dyf = D.Dyf := by
  intro D
  have hS : ∀ d, (spdiag (flatten fun (i : Fin Nx) (_ : Fin Ny) => 1 / create_sfactor xr L0 d omega Nx NPML.1 i) : Mat (Nx * Ny) ℂ) = 1 := by
    intro d
    rw [hP]
    simp only [create_sfactor, Nat.lt_one_iff, if_true, div_one]
    exact Matrix.diagonal_one
  have hy : ∀ d, relMat (mirrorσ Nx Ny) (spdiag (flatten fun (_ : Fin Nx) (j : Fin Ny) => 1 / create_sfactor yr L0 d omega Ny NPML.2 j)) =
      spdiag (flatten fun (_ : Fin Nx) (j : Fin Ny) => 1 / create_sfactor yr L0 d omega Ny NPML.2 j) := fun d => relMat_spdiag_flatten _ _
  refine ⟨?_, ?_, ?_, ?_⟩
  · simp only [D, mkDerivs, S_create, relMat_mul, createDws_mirror_y, hy]
  · simp only [D, mkDerivs, S_create, hS, Matrix.one_mul, (createDws_mirror_x hx _ _).2]
  · simp only [D, mkDerivs, S_create, hS, Matrix.one_mul, (createDws_mirror_x hx _ _).1]
  · simp only [D, mkDerivs, S_create, relMat_mul, createDws_mirror_y, hy]

theorem mkDerivs_x_free (hx : 1 < Nx) (omega L0 : ℝ) (xr yr : ℝ × ℝ) (NPML : ℕ × ℕ) (hP : NPML.1 = 0) (f : Grid Nx Ny ℂ) :
    (mkDerivs omega xr yr Nx Ny NPML L0).Dxf *ᵥ flatten f = flatten (Spec.fwdX (dL Nx Ny xr yr).1 f) ∧
    (mkDerivs omega xr yr Nx Ny NPML L0).Dxb *ᵥ flatten f = flatten (Spec.bwdX (dL Nx Ny xr yr).1 f) := by
  rw [mkDerivs_Dxf _ _ _ _ _ hx, mkDerivs_Dxb _ _ _ _ _ hx, hP]
  simp only [create_sfactor, Nat.lt_one_iff, if_true, div_one]
  exact ⟨trivial, trivial⟩

/-- Differencing forwards after backwards is differencing backwards after forwards, with the coefficient sampled one cell further. -/
theorem mkDerivs_swap (hx : 1 < Nx) (omega L0 : ℝ) (xr yr : ℝ × ℝ) (NPML : ℕ × ℕ) (hP : NPML.1 = 0) (g : Grid Nx Ny ℂ) :
    let D := mkDerivs omega xr yr Nx Ny NPML L0
    D.Dxb * spdiag (flatten g) * D.Dxf = D.Dxf * spdiag (flatten fun i j => g (Spec.prev i) j) * D.Dxb := by
  intro D
  refine Matrix.mulVec_injective ?_
  funext v
  obtain ⟨f, rfl⟩ : ∃ f : Grid Nx Ny ℂ, v = flatten f := ⟨unflatten v, (flatten_unflatten v).symm⟩
  have e : ∀ a b : Grid Nx Ny ℂ, spdiag (flatten a) *ᵥ flatten b = flatten fun i j => a i j * b i j := fun a b => by rw [spdiag_mulVec]; rfl
  simp only [D, ← Matrix.mulVec_mulVec, (mkDerivs_x_free hx omega L0 xr yr NPML hP _).1, (mkDerivs_x_free hx omega L0 xr yr NPML hP _).2, e]
  congr 1
  funext i j
  simp only [Spec.fwdX, Spec.bwdX, next_prev, prev_next]

theorem Spec.Mirrored.system {s s' : Sim Nx Ny} (h : Spec.Mirrored s s') (hv : s.Valid) (hv' : s'.Valid) (hx : 1 < Nx) (hP : s.NPML.1 = 0) :
    s'.derivs = s.derivs ∧ s'.A = relMat (mirrorσ Nx Ny) s.A := by
  have hD : mkDerivs s'.omega s'.xrange s'.yrange Nx Ny s'.NPML s'.L0 = s.derivs := by
    rw [hv'.xr, hv'.yr, h.omega, h.NPML, h.L0, h.dl, ← hv.xr, ← hv.yr, ← hv.derivs_eq]
  refine ⟨hv'.derivs_eq.trans hD, ?_⟩
  obtain ⟨h1, h2, h3, h4⟩ := mkDerivs_mirror (Nx := Nx) (Ny := Ny) hx s.omega s.L0 s.xrange s.yrange s.NPML hP
  have hsw := fun g => mkDerivs_swap (Nx := Nx) (Ny := Ny) hx s.omega s.L0 s.xrange s.yrange s.NPML hP g
  rw [← hv.derivs_eq] at h1 h2 h3 h4
  simp only [← hv.derivs_eq] at hsw
  have hA := hv.A_eq
  have hA' := hv'.A_eq
  rw [h.pol, h.eps_r] at hA'
  unfold construct_A at hA hA'
  simp only [← hv.derivs_eq] at hA
  simp only [hD] at hA'
  simp only [h.omega, h.L0] at hA'
  rw [hA, hA']
  cases s.pol with
  | Ez =>
    have hs1 := hsw fun _ _ => 1
    have one : (spdiag (flatten fun (_ : Fin Nx) (_ : Fin Ny) => (1 : ℂ)) : Mat (Nx * Ny) ℂ) = 1 := Matrix.diagonal_one
    rw [one, Matrix.mul_one, Matrix.mul_one] at hs1
    simp only [relMat_add, relMat_smul, relMat_mul, h1, h2, h3, h4, neg_mul_neg, hs1]
    congr 2
    exact (relMat_spdiag_flatten (mirrorσ Nx Ny) fun i j => ((EPSILON_0 * s.L0 : ℝ) : ℂ) * s.eps_r i j).symm
  | Hz =>
    simp only [if_true, relMat_add, relMat_smul, relMat_mul, relMat_one, h1, h2, h3, h4]
    have ey : relMat (mirrorσ Nx Ny) (spdiag fun k => 1 / flatten (grid_average (fun i j => ((EPSILON_0 * s.L0 : ℝ) : ℂ) * s.eps_r i j) .y) k) =
        spdiag fun k => 1 / flatten (grid_average (fun i j => ((EPSILON_0 * s.L0 : ℝ) : ℂ) * Spec.mirror s.eps_r i j) .y) k :=
      relMat_spdiag_flatten (mirrorσ Nx Ny) fun i j => 1 / grid_average (fun i j => ((EPSILON_0 * s.L0 : ℝ) : ℂ) * s.eps_r i j) .y i j
    have ex : relMat (mirrorσ Nx Ny) (spdiag fun k => 1 / flatten (grid_average (fun i j => ((EPSILON_0 * s.L0 : ℝ) : ℂ) * s.eps_r i j) .x) k) =
        spdiag (flatten fun i j => 1 / grid_average (fun i j => ((EPSILON_0 * s.L0 : ℝ) : ℂ) * s.eps_r i j) .x (Spec.opp i) j) :=
      relMat_spdiag_flatten (mirrorσ Nx Ny) fun i j => 1 / grid_average (fun i j => ((EPSILON_0 * s.L0 : ℝ) : ℂ) * s.eps_r i j) .x i j
    rw [ey, ex, neg_mul, neg_mul_neg, hsw]
    congr 4
    refine congrArg spdiag (flat_ext fun i j => ?_)
    rw [flatten_pair, flatten_pair]
    simp only [grid_average, rollBack_eq_prev, Spec.mirror, opp_prev, prev_next]
    rw [add_comm]

theorem Spec.Mirrored.renamed {s s' : Sim Nx Ny} (h : Spec.Mirrored s s') (hv : s.Valid) (hv' : s'.Valid) (hx : 1 < Nx) (hP : s.NPML.1 = 0) : Renamed (mirrorσ Nx Ny) s s' :=
  ⟨h.omega, h.L0, h.pol, h.eps_r, h.src, h.nonlinearity, (h.system hv hv' hx hP).2⟩

theorem Spec.Mirrored.in_plane {s s' : Sim Nx Ny} (h : Spec.Mirrored s s') (hv : s.Valid) (hv' : s'.Valid) (hx : 1 < Nx) (hP : s.NPML.1 = 0) (avg : Bool) (ha : s.pol = .Ez ∨ avg = true)
    (eps : Grid Nx Ny ℂ) (X : Vec (Nx * Ny) ℂ) :
    s'.in_plane avg (Spec.mirror eps) (fun k => X ((relIdx (mirrorσ Nx Ny)).symm k)) = Spec.mirror3 (s.in_plane avg eps X) := by
  obtain ⟨hd, -⟩ := h.system hv hv' hx hP
  obtain ⟨h1, -, -, -⟩ := mkDerivs_mirror (Nx := Nx) (Ny := Ny) hx s.omega s.L0 s.xrange s.yrange s.NPML hP
  have hb := fun f => (mkDerivs_x_free (Nx := Nx) (Ny := Ny) hx s.omega s.L0 s.xrange s.yrange s.NPML hP f).2
  rw [← hv.derivs_eq] at h1
  simp only [← hv.derivs_eq] at hb
  obtain ⟨f, rfl⟩ : ∃ f : Grid Nx Ny ℂ, X = flatten f := ⟨unflatten X, (flatten_unflatten X).symm⟩
  have hX : (fun k => flatten f ((relIdx (mirrorσ Nx Ny)).symm k)) = flatten (Spec.mirror f) := (flatten_relabel (mirrorσ Nx Ny) f).symm
  have hc : ∀ (c : ℂ) (v : Vec (Nx * Ny) ℂ), (unflatten (c • fun k => v ((relIdx (mirrorσ Nx Ny)).symm k)) : Grid Nx Ny ℂ) = Spec.mirror (unflatten (c • v)) :=
    fun c v => unflatten_relabel (mirrorσ Nx Ny) (c • v)
  unfold Sim.in_plane
  rw [h.pol]
  cases hp : s.pol with
  | Ez =>
    simp only [hd, h.L0, h.omega]
    refine Prod.ext ?_ (Prod.ext ?_ ?_)
    · show unflatten (_ • (s.derivs.Dyb *ᵥ _)) = Spec.mirror (unflatten (_ • (s.derivs.Dyb *ᵥ flatten f)))
      rw [← hc, ← relMat_mulVec, h1]
    · show unflatten (_ • (s.derivs.Dxb *ᵥ _)) = Spec.mirrorHalf (unflatten (_ • (s.derivs.Dxb *ᵥ flatten f)))
      rw [hX, hb, hb]
      funext i j
      simp only [Spec.mirrorHalf, unflatten, Pi.smul_apply, flatten_pair, smul_eq_mul, Spec.bwdX, Spec.mirror, opp_prev, prev_next]
      ring
    · exact unflatten_relabel (mirrorσ Nx Ny) (flatten f)
  | Hz =>
    obtain rfl : avg = true := ha.resolve_left (by rw [hp]; exact fun h => by cases h)
    simp only [hd, h.L0, h.omega, Sim.eps_xy, if_true]
    refine Prod.ext ?_ (Prod.ext ?_ ?_)
    · show unflatten (_ • ((spdiag (fun k => 1 / flatten (grid_average (fun i j => ((EPSILON_0 * s.L0 : ℝ) : ℂ) * Spec.mirror eps i j) .y) k) * s.derivs.Dyb) *ᵥ _)) =
        Spec.mirror (unflatten (_ • ((spdiag (fun k => 1 / flatten (grid_average (fun i j => ((EPSILON_0 * s.L0 : ℝ) : ℂ) * eps i j) .y) k) * s.derivs.Dyb) *ᵥ flatten f)))
      have ey : relMat (mirrorσ Nx Ny) (spdiag fun k => 1 / flatten (grid_average (fun i j => ((EPSILON_0 * s.L0 : ℝ) : ℂ) * eps i j) .y) k) =
          spdiag fun k => 1 / flatten (grid_average (fun i j => ((EPSILON_0 * s.L0 : ℝ) : ℂ) * Spec.mirror eps i j) .y) k :=
        relMat_spdiag_flatten (mirrorσ Nx Ny) fun i j => 1 / grid_average (fun i j => ((EPSILON_0 * s.L0 : ℝ) : ℂ) * eps i j) .y i j
      rw [← hc, ← relMat_mulVec, relMat_mul, h1, ey]
    · show unflatten (_ • ((spdiag (fun k => 1 / flatten (grid_average (fun i j => ((EPSILON_0 * s.L0 : ℝ) : ℂ) * Spec.mirror eps i j) .x) k) * s.derivs.Dxb) *ᵥ _)) =
        Spec.mirrorHalf (unflatten (_ • ((spdiag (fun k => 1 / flatten (grid_average (fun i j => ((EPSILON_0 * s.L0 : ℝ) : ℂ) * eps i j) .x) k) * s.derivs.Dxb) *ᵥ flatten f)))
      rw [hX, ← Matrix.mulVec_mulVec, ← Matrix.mulVec_mulVec, hb, hb, spdiag_mulVec, spdiag_mulVec]
      funext i j
      simp only [Spec.mirrorHalf, unflatten, Pi.smul_apply, flatten_pair, smul_eq_mul, Spec.bwdX, Spec.mirror, grid_average, rollBack_eq_prev, opp_prev, prev_next]
      ring
    · exact unflatten_relabel (mirrorσ Nx Ny) (flatten f)

theorem store_mirror (p : Pol) (f : Fields Nx Ny) (t : Triple Nx Ny) : Sim.store p (Spec.mirrorFields f) (Spec.mirror3 t) = Spec.mirrorFields (Sim.store p f t) := by
  funext c
  cases p <;> cases c <;> rfl

/-! ## Solves -/

/-- **C74, linear solves (partial).** Without absorbing layers across `x`, the mirror image of a device has the mirror images of its fields, returned and stored: always for Ez, and for Hz with
`averaging=True`.  Missing: Hz with the default `averaging=False` (`C74_default_averaging_false`), absorbing layers across `x` (`C74_absorber_false`). -/
theorem C74_linear_partial (env : Env) (he : env.Exact) (s s' : Sim Nx Ny) (h : Spec.Mirrored s s') (hv : s.Valid) (hv' : s'.Valid) (hx : 1 < Nx) (hP : s.NPML.1 = 0) (hdet : s.A.det ≠ 0)
    (avg : Bool) (ha : s.pol = .Ez ∨ avg = true) :
    (s'.solve_fields env false avg).1 = (s.solve_fields env false avg).1.map Spec.mirror3 ∧ Spec.Mirrored (s.solve_fields env false avg).2 (s'.solve_fields env false avg).2 := by
  have ht : s'.in_plane avg s'.eps_r (solver_direct env s'.A s'.rhs) = Spec.mirror3 (s.in_plane avg s.eps_r (solver_direct env s.A s.rhs)) := by
    rw [(h.renamed hv hv' hx hP).solution he hdet, h.eps_r, h.in_plane hv hv' hx hP avg ha]
  simp only [Sim.solve_fields, if_true, ht]
  refine ⟨rfl, { h with fields := ?_ }⟩
  rw [h.pol, h.fields, store_mirror]

/-- **C74, Kerr solves (partial).** For Ez, with every solver string, threshold, iteration limit and starting field, the mirror image of a device gives the same outcome: the same exception, or the
mirror images of the fields with the same convergence history. -/
theorem C74_nonlinear_partial (env : Env) (he : env.Exact) (s s' : Sim Nx Ny) (h : Spec.Mirrored s s') (hv : s.Valid) (hv' : s'.Valid) (hp : s.pol = .Ez) (hx : 1 < Nx) (hP : s.NPML.1 = 0)
    (hA : s.A.det ≠ 0) (hdet : ∀ F, (bornMat s F).det ≠ 0) (hjac : ∀ F, Spec.JacRegular s F) (E : Option (Grid Nx Ny ℂ)) (solver : NlSolver) (thr : ℝ) (n : ℕ) :
    (solve_fields_nl env s' (E.map Spec.mirror) solver thr n).1 =
        (solve_fields_nl env s E solver thr n).1.map (fun r => ⟨Spec.mirror r.Fx, Spec.mirrorHalf r.Fy, Spec.mirror r.Fz, r.conv⟩) ∧
      Spec.mirrorFields (solve_fields_nl env s E solver thr n).2.fields = (solve_fields_nl env s' (E.map Spec.mirror) solver thr n).2.fields ∧
      Spec.mirrorFields (solve_fields_nl env s E solver thr n).2.fields_nl = (solve_fields_nl env s' (E.map Spec.mirror) solver thr n).2.fields_nl := by
  have hR : RenamedRun (mirrorσ Nx Ny) Spec.mirror3 Spec.mirrorFields s s' :=
    { data := h.renamed hv hv' hx hP, plane := h.in_plane hv hv' hx hP false (Or.inl hp), store := store_mirror s.pol, comp := fun f => by cases s.pol <;> rfl,
      fields := h.fields, fields_nl := h.fields_nl, regular := hA, regular_nl := hdet, regular_jac := fun _ => hjac }
  obtain ⟨h1, h2⟩ := (RenamedRun.covariant he (mirrorσ Nx Ny) Spec.mirror3 Spec.mirrorFields fun _ => rfl).solve_nl hR E solver thr n
  exact ⟨h1, h2.fields.symm, h2.fields_nl.symm⟩

/-! ## Where it fails -/

/-- **C74, negation.** With the default `averaging=False` an Hz device that is its own mirror image has a field that is not: the in-plane field divides by the permittivity of the cell to one side. -/
theorem C74_default_averaging_false (env : Env) (he : env.Exact) : ∃ s : Sim 2 2, s.pol = .Hz ∧ s.Valid ∧ s.A.det ≠ 0 ∧ s.NPML = (0, 0) ∧ Spec.Mirrored s s ∧
    (s.solve_fields env).1 ≠ (s.solve_fields env).1.map Spec.mirror3 := by
  have hE : (ETA_0 : ℂ) ≠ 0 := by exact_mod_cast ETA_0_pos.ne'
  have hI := Complex.I_ne_zero
  have ho : ∀ i : Fin 2, Spec.opp i = i := by intro i; fin_cases i <;> rfl
  have hm : ∀ g : Grid 2 2 ℂ, Spec.mirror g = g := fun g => by funext i j; simp only [Spec.mirror, ho]
  refine ⟨wsim .Hz wEps wSrcHz, rfl, wsim_valid _ _ _, wsim_Hz_det _, rfl, ⟨rfl, rfl, rfl, rfl, rfl, (hm _).symm, (hm _).symm, rfl, ?_, ?_⟩, ?_⟩
  · funext c; cases c <;> rfl
  · funext c; cases c <;> rfl
  let X : Grid 2 2 ℂ := fun i _ => if i = 0 then 0 else 1
  have hsol : solver_direct env (wsim .Hz wEps wSrcHz).A (wsim .Hz wEps wSrcHz).rhs = flatten X := by
    refine solver_direct_unique he (wsim_Hz_det _) ?_
    rw [wsim_Hz_apply]
    refine flat_ext fun i j => ?_
    simp only [flatten_pair, Sim.rhs]
    have hII : ∀ z : ℂ, z = -(z * Complex.I * Complex.I) := fun z => by rw [mul_assoc, Complex.I_mul_I]; ring
    fin_cases i <;> fin_cases j <;> norm_num [X, wEps, wsim, wSrcHz, flatten_pair] <;> exact hII _
  simp only [Sim.solve_fields, if_true, hsol]
  rw [show (wsim .Hz wEps wSrcHz).eps_r = wEps from rfl, wsim_Hz_in_plane]
  intro h
  have h2 := congrFun (congrFun (congrArg (fun t : Triple 2 2 => t.2.1) (Except.ok.inj h)) 0) 0
  simp only [Spec.mirror3, Spec.mirrorHalf, ho] at h2
  norm_num [X, wEps, Spec.next] at h2
  exact hE (by linear_combination (3 / 2) * h2)

theorem fsim_layer (d : Dir) (i : Fin 4) (l : ℝ) (P : ℕ) (hP : P = 1) (h : (i : ℕ) ≤ 1) (hl : l = match d with | .f => 1.5 - (i : ℕ) | .b => 2 - (i : ℕ)) :
    create_sfactor (0, ((4 : ℕ) : ℝ) * (3 / ETA_0)) (1 / EPSILON_0) d 1 4 P i = 1 - 10 * l ^ 4 * Complex.I := by
  subst hP hl
  have hE := ETA_0_pos.ne'
  have hI : ((i : ℕ) : ℤ) ≤ ((1 : ℕ) : ℤ) := by exact_mod_cast h
  have hs : ∀ x : ℝ, Sfac (3 / ETA_0 * x) (3 / ETA_0) 1 (1 / EPSILON_0) = 1 - 10 * x ^ 4 * Complex.I := by
    intro x
    have hq : sig_w (3 / ETA_0 * x) (3 / ETA_0) = 10 * x ^ 4 := by
      unfold sig_w
      field_simp
      ring
    rw [Sfac, hq, one_mul, mul_one_div_cancel EPSILON_0_pos.ne']
    push_cast
    ring
  have hw : (((4 : ℕ) : ℝ) * (3 / ETA_0) - 0) / ((4 : ℕ) : ℝ) = 3 / ETA_0 := by push_cast; ring
  unfold create_sfactor
  rw [if_neg (by norm_num)]
  cases d <;>
  · dsimp only
    rw [if_pos hI, hw, Nat.cast_one, one_mul, hs]
    push_cast
    ring

theorem fsim_inner (d : Dir) (i : Fin 4) (h : 1 < (i : ℕ)) :
    create_sfactor (0, ((4 : ℕ) : ℝ) * (3 / ETA_0)) (1 / EPSILON_0) d 1 4 1 i = 1 := by
  have h1 : ¬ ((i : ℕ) : ℤ) ≤ ((1 : ℕ) : ℤ) := by exact_mod_cast not_le.2 h
  have h2 : ¬ ((i : ℕ) : ℤ) > ((4 : ℕ) : ℤ) - ((1 : ℕ) : ℤ) := by
    have := i.2
    push_cast
    omega
  unfold create_sfactor
  rw [if_neg (by norm_num)]
  cases d <;> simp only [if_neg h1, if_neg h2]

theorem fsim_column (src : Grid 4 2 ℂ) (f : Fin 4 → ℂ) : ((fsim 1 (fun _ _ => 1) src).A *ᵥ flatten fun i _ => f i) = flatten fun i _ =>
    ((f (Spec.next i) - f i) / create_sfactor (0, ((4 : ℕ) : ℝ) * (3 / ETA_0)) (1 / EPSILON_0) .b 1 4 1 (Spec.next i)
      - (f i - f (Spec.prev i)) / create_sfactor (0, ((4 : ℕ) : ℝ) * (3 / ETA_0)) (1 / EPSILON_0) .b 1 4 1 i)
        / create_sfactor (0, ((4 : ℕ) : ℝ) * (3 / ETA_0)) (1 / EPSILON_0) .f 1 4 1 i / 9 + f i := by
  have hE : (ETA_0 : ℂ) ≠ 0 := by exact_mod_cast ETA_0_pos.ne'
  have hdL : dL 4 2 ((0 : ℝ), ((4 : ℕ) : ℝ) * (3 / ETA_0)) ((0 : ℝ), ((2 : ℕ) : ℝ) * (3 / ETA_0)) = (3 / ETA_0, 3 / ETA_0) :=
    (fsim_valid (Nx := 4) (Ny := 2) 1 (fun _ _ => 1) src).dL_eq (by omega) (by omega)
  have hx : 1 < 4 := by norm_num
  have hy : 1 < 2 := by norm_num
  simp only [fsim, construct_A, Matrix.add_mulVec, smul_mulVec, ← Matrix.mulVec_mulVec,
    mkDerivs_Dxb _ _ _ _ _ hx, mkDerivs_Dyb _ _ _ _ _ hy, mkDerivs_Dxf _ _ _ _ _ hx, mkDerivs_Dyf _ _ _ _ _ hy, spdiag_mulVec, hdL,
    eps0_norm, mu0_norm]
  refine flat_ext fun i j => ?_
  simp only [Pi.add_apply, Pi.smul_apply, flatten_pair, Spec.fwdX, Spec.bwdX, Spec.fwdY, Spec.bwdY, prev_next, smul_eq_mul, sub_self, zero_div, mul_zero, add_zero]
  generalize create_sfactor _ _ _ _ _ _ _ = a
  generalize create_sfactor _ _ _ _ _ _ _ = b
  generalize create_sfactor _ _ _ _ _ _ _ = c
  push_cast
  have e : ∀ z : ℂ, z / (3 / (ETA_0 : ℂ)) = z * ETA_0 / 3 := fun z => by field_simp
  have e2 : (1 : ℂ) / (ETA_0 : ℂ) ^ 2 * ETA_0 * ETA_0 = 1 := by field_simp
  simp only [e]
  linear_combination (((f (Spec.next i) - f i) / a - (f i - f (Spec.prev i)) / b) / c / 9) * e2

theorem fsim_mirrored (P : ℕ) (eps src : Grid Nx Ny ℂ) : Spec.Mirrored (fsim P eps src) (fsim P (Spec.mirror eps) (Spec.mirror src)) := by
  refine ⟨rfl, rfl, rfl, rfl, rfl, rfl, rfl, rfl, ?_, ?_⟩
  · funext c; cases c <;> rfl
  · funext c; cases c <;> rfl

theorem fsim_third (P : ℕ) (eps src f : Grid Nx Ny ℂ) (avg : Bool) (e : Grid Nx Ny ℂ) : ((fsim P eps src).in_plane avg e (flatten f)).2.2 = f := by
  exact (show _ = unflatten (flatten f) from rfl).trans (unflatten_flatten _)

/-- A source that produces a given field. -/
theorem fsim_src (hx : 1 < Nx) (hy : 1 < Ny) (P : ℕ) (eps f : Grid Nx Ny ℂ) (he : ∀ i j, 1 ≤ ‖eps i j‖) (env : Env) (hex : env.Exact) :
    ∃ src, (∀ src', (fsim P eps src').A *ᵥ flatten f = (fsim P eps src).rhs) ∧ solver_direct env (fsim P eps src).A (fsim P eps src).rhs = flatten f := by
  have h : ∀ src', (fsim P eps src').A *ᵥ flatten f = (fsim P eps (unflatten ((-Complex.I) • ((fsim P eps (fun _ _ => 0)).A *ᵥ flatten f)))).rhs := by
    intro src'
    funext k
    show ((fsim P eps (fun _ _ => 0)).A *ᵥ flatten f) k = flatten (unflatten ((-Complex.I) • ((fsim P eps (fun _ _ => 0)).A *ᵥ flatten f)) : Grid Nx Ny ℂ) k * Complex.I * ((1 : ℝ) : ℂ)
    rw [flatten_unflatten, Pi.smul_apply, smul_eq_mul]
    push_cast
    linear_combination (((fsim P eps (fun _ _ => 0)).A *ᵥ flatten f) k) * Complex.I_sq
  exact ⟨_, h, solver_direct_unique hex (fsim_det hx hy _ _ _ he) (h _)⟩

/-- **C74, negation.** With a layer of one absorbing cell on each side, the mirror image of a uniform device does not have the mirror image of its field: the code's two layers are not mirror images
of each other. -/
theorem C74_absorber_false (env : Env) (he : env.Exact) : ∃ s s' : Sim 4 2, s.Valid ∧ s'.Valid ∧ s.A.det ≠ 0 ∧ s'.A.det ≠ 0 ∧ s.pol = .Ez ∧ s.NPML = (1, 1) ∧ Spec.Mirrored s s' ∧
    (s'.solve_fields env).1 ≠ (s.solve_fields env).1.map Spec.mirror3 := by
  have hE : ∀ (i : Fin 4) (j : Fin 2), (1 : ℝ) ≤ ‖(1 : ℂ)‖ := fun _ _ => by rw [norm_one]
  let f : Fin 4 → ℂ := fun i => if i = 1 then 1 else 0
  let g : Fin 4 → ℂ := fun i => if i = 3 then 1 else 0
  obtain ⟨src, hrhs, hsol⟩ := fsim_src (Nx := 4) (Ny := 2) (by norm_num) (by norm_num) 1 (fun _ _ => 1) (fun i _ => f i) hE env he
  refine ⟨fsim 1 (fun _ _ => 1) src, fsim 1 (fun _ _ => 1) (Spec.mirror src), fsim_valid _ _ _, fsim_valid _ _ _, fsim_det (by norm_num) (by norm_num) _ _ _ hE,
    fsim_det (by norm_num) (by norm_num) _ _ _ hE, rfl, rfl, fsim_mirrored 1 (fun _ _ => 1) src, ?_⟩
  intro h
  have hdet := fsim_det (Nx := 4) (Ny := 2) (by norm_num) (by norm_num) 1 (fun _ _ => 1) (Spec.mirror src) hE
  have hspec := solver_direct_spec he (A := (fsim 1 (fun _ _ => 1) (Spec.mirror src) : Sim 4 2).A) (b := (fsim 1 (fun _ _ => 1) (Spec.mirror src) : Sim 4 2).rhs) (Or.inl hdet)
  simp only [Sim.solve_fields, if_true, hsol] at h
  have h2 := congrArg (fun t : Triple 4 2 => flatten t.2.2) (Except.ok.inj h)
  obtain ⟨X, hX⟩ : ∃ X : Grid 4 2 ℂ, solver_direct env (fsim 1 (fun _ _ => 1) (Spec.mirror src) : Sim 4 2).A (fsim 1 (fun _ _ => 1) (Spec.mirror src) : Sim 4 2).rhs = flatten X :=
    ⟨_, (flatten_unflatten _).symm⟩
  rw [hX] at h2 hspec
  simp only [Spec.mirror3] at h2
  rw [fsim_third, fsim_third] at h2
  have hg : (Spec.mirror (fun i _ => f i) : Grid 4 2 ℂ) = fun i _ => g i := by
    funext i j
    fin_cases i <;> rfl
  rw [h2, hg, fsim_column] at hspec
  have hf := hrhs src
  rw [fsim_column] at hf
  have h3 := congrFun hspec (finProdFinEquiv ((3 : Fin 4), (0 : Fin 2)))
  have h1 := congrFun hf (finProdFinEquiv ((1 : Fin 4), (0 : Fin 2)))
  have hr : (fsim 1 (fun _ _ => 1) (Spec.mirror src) : Sim 4 2).rhs (finProdFinEquiv ((3 : Fin 4), (0 : Fin 2))) =
      (fsim 1 (fun _ _ => 1) src : Sim 4 2).rhs (finProdFinEquiv ((1 : Fin 4), (0 : Fin 2))) := by
    simp only [Sim.rhs, flatten_pair]
    rfl
  rw [hr, ← h1, flatten_pair, flatten_pair] at h3
  have n3 : Spec.next (3 : Fin 4) = 0 := rfl
  have p3 : Spec.prev (3 : Fin 4) = 2 := rfl
  have n1 : Spec.next (1 : Fin 4) = 2 := rfl
  have p1 : Spec.prev (1 : Fin 4) = 0 := rfl
  rw [n3, p3, n1, p1, fsim_layer .b 0 2 1 rfl (by decide) (by norm_num), fsim_layer .b 1 1 1 rfl (by decide) (by norm_num), fsim_layer .f 1 (1 / 2) 1 rfl (by decide) (by norm_num),
    fsim_inner .b 3 (by decide), fsim_inner .b 2 (by decide), fsim_inner .f 3 (by decide)] at h3
  have f0 : f 0 = 0 := rfl
  have f1 : f 1 = 1 := rfl
  have f2 : f 2 = 0 := rfl
  have g0 : g 0 = 0 := rfl
  have g2 : g 2 = 0 := rfl
  have g3 : g 3 = 1 := rfl
  rw [f0, f1, f2, g0, g2, g3] at h3
  have ne : ∀ x : ℝ, (1 : ℂ) - x * Complex.I ≠ 0 := fun x hx => by
    have := congrArg Complex.re hx
    simp at this
  have a1 : (1 : ℂ) - 160 * Complex.I ≠ 0 := by exact_mod_cast ne 160
  have a2 : (1 : ℂ) - 10 * Complex.I ≠ 0 := by exact_mod_cast ne 10
  have a3 : (1 : ℂ) - 5 / 8 * Complex.I ≠ 0 := by simpa using ne (5 / 8)
  have h4 : (2 - 10 * Complex.I) * (1 - 160 * Complex.I) = (2 - 160 * Complex.I) * (1 - 10 * Complex.I) * (1 - 5 / 8 * Complex.I) := by
    have b1 : (1 : ℂ) - 10 * ((2 : ℝ) : ℂ) ^ 4 * Complex.I = 1 - 160 * Complex.I := by push_cast; ring
    have b2 : (1 : ℂ) - 10 * ((1 : ℝ) : ℂ) ^ 4 * Complex.I = 1 - 10 * Complex.I := by push_cast; ring
    have b3 : (1 : ℂ) - 10 * ((1 / 2 : ℝ) : ℂ) ^ 4 * Complex.I = 1 - 5 / 8 * Complex.I := by push_cast; ring
    rw [b1, b2, b3] at h3
    have key : ∀ A B C : ℂ, A ≠ 0 → B ≠ 0 → C ≠ 0 → ((0 - 1) / A - (1 - 0) / 1) / 1 / 9 + 1 = ((0 - 1) / 1 - (1 - 0) / B) / C / 9 + 1 → (B + 1) * A = (A + 1) * B * C := by
      intro A B C hA hB hC h
      field_simp at h
      linear_combination h
    linear_combination key _ _ _ a1 a2 a3 h3
  have h5 := congrArg Complex.re h4
  norm_num at h5

/-! ## The other axis -/

/-- The mirror image, along `y`, of an array sampled at the cells. -/
def Spec.mirrorY (f : Grid Nx Ny α) : Grid Nx Ny α := fun i j => f i (Spec.opp j)

/-- The mirror image, along `y`, of a component sampled half a cell below the cells. -/
def Spec.mirrorYHalf (f : Grid Nx Ny ℂ) : Grid Nx Ny ℂ := fun i j => -f i (Spec.next (Spec.opp j))

/-- The mirror image of the three components along `y`. -/
def Spec.mirrorY3 (t : Triple Nx Ny) : Triple Nx Ny := (Spec.mirrorYHalf t.1, Spec.mirrorY t.2.1, Spec.mirrorY t.2.2)

/-- The mirror image, along `y`, of stored fields. -/
def Spec.mirrorYFields (f : Fields Nx Ny) : Fields Nx Ny
  | .Ex => (f .Ex).map Spec.mirrorYHalf
  | .Hx => (f .Hx).map Spec.mirrorYHalf
  | c => (f c).map Spec.mirrorY

/-- `s'` describes the mirror image, along `y`, of the device of `s`. -/
structure Spec.MirroredY (s s' : Sim Nx Ny) : Prop where
  L0 : s'.L0 = s.L0
  dl : s'.dl = s.dl
  omega : s'.omega = s.omega
  NPML : s'.NPML = s.NPML
  pol : s'.pol = s.pol
  eps_r : s'.eps_r = Spec.mirrorY s.eps_r
  src : s'.src = Spec.mirrorY s.src
  nonlinearity : s'.nonlinearity = s.nonlinearity.map fun n => { chi := n.chi, nl_region := Spec.mirrorY n.nl_region, scale := n.scale }
  fields : s'.fields = Spec.mirrorYFields s.fields
  fields_nl : s'.fields_nl = Spec.mirrorYFields s.fields_nl

theorem mirrorFields_turnFields (f : Fields Nx Ny) : Spec.mirrorFields (Spec.turnFields f) = Spec.turnFields (Spec.mirrorYFields f) := by
  funext c
  cases c <;> simp only [Spec.mirrorFields, Spec.turnFields, Spec.mirrorYFields, Option.map_map] <;> rfl

theorem turnFields_injective : Function.Injective (Spec.turnFields : Fields Nx Ny → Fields Ny Nx) := by
  have h : ∀ f : Fields Nx Ny, Spec.turnFields (Spec.turnFields f) = f := by
    intro f
    have h1 : (Spec.turn ∘ Spec.turn : Grid Nx Ny ℂ → Grid Nx Ny ℂ) = id := rfl
    have h2 : (Spec.turnNeg ∘ Spec.turnNeg : Grid Nx Ny ℂ → Grid Nx Ny ℂ) = id := by
      funext g i j
      exact neg_neg _
    funext c
    cases c <;> simp only [Spec.turnFields, Option.map_map, h1, h2, Option.map_id, id]
  intro a b hab
  rw [← h a, ← h b, hab]

theorem store_mirrorY (p : Pol) (f : Fields Nx Ny) (t : Triple Nx Ny) : Sim.store p (Spec.mirrorYFields f) (Spec.mirrorY3 t) = Spec.mirrorYFields (Sim.store p f t) := by
  funext c
  cases p <;> cases c <;> rfl

theorem Spec.MirroredY.turned {s s' : Sim Nx Ny} (h : Spec.MirroredY s s') : Spec.Mirrored (toTurn s) (toTurn s') := by
  refine ⟨h.L0, h.dl, h.omega, ?_, h.pol, ?_, ?_, ?_, ?_, ?_⟩
  · simp only [toTurn, h.NPML]
  · simp only [toTurn, h.eps_r]
    rfl
  · simp only [toTurn, h.src]
    rfl
  · simp only [toTurn, h.nonlinearity, List.map_map]
    rfl
  · simp only [toTurn]
    rw [h.fields, mirrorFields_turnFields]
  · simp only [toTurn]
    rw [h.fields_nl, mirrorFields_turnFields]

theorem turn3_injective : Function.Injective (Spec.turn3 : Triple Nx Ny → Triple Ny Nx) := by
  intro a b h
  have h1 : ∀ i j, -a.2.1 j i = -b.2.1 j i := fun i j => congrFun (congrFun (congrArg (fun t : Triple Ny Nx => t.1) h) i) j
  have h2 : ∀ i j, -a.1 j i = -b.1 j i := fun i j => congrFun (congrFun (congrArg (fun t : Triple Ny Nx => t.2.1) h) i) j
  have h3 : ∀ i j, a.2.2 j i = b.2.2 j i := fun i j => congrFun (congrFun (congrArg (fun t : Triple Ny Nx => t.2.2) h) i) j
  refine Prod.ext ?_ (Prod.ext ?_ ?_) <;> funext i j
  · exact neg_injective (h2 j i)
  · exact neg_injective (h1 j i)
  · exact h3 j i

theorem mirror3_turn3 (t : Triple Nx Ny) : Spec.mirror3 (Spec.turn3 t) = Spec.turn3 (Spec.mirrorY3 t) := rfl

/-- **C74, linear solves, the other axis (partial).** As `C74_linear_partial`, for the mirror image along `y`. -/
theorem C74_linear_y_partial (env : Env) (he : env.Exact) (s s' : Sim Nx Ny) (h : Spec.MirroredY s s') (hv : s.Valid) (hv' : s'.Valid) (hy : 1 < Ny) (hP : s.NPML.2 = 0) (hdet : s.A.det ≠ 0)
    (avg : Bool) (ha : s.pol = .Ez ∨ avg = true) :
    (s'.solve_fields env false avg).1 = (s.solve_fields env false avg).1.map Spec.mirrorY3 ∧ Spec.MirroredY (s.solve_fields env false avg).2 (s'.solve_fields env false avg).2 := by
  have hT := toTurn_turned s
  have hT' := toTurn_turned s'
  have hd : (toTurn s).A.det ≠ 0 := by
    rw [(hT.renamed hv (toTurn_valid s hv)).A, relMat_det]
    exact hdet
  have hd' : s'.A.det ≠ 0 := by
    rw [← relMat_det (turnσ Nx Ny), ← (hT'.renamed hv' (toTurn_valid s' hv')).A, (h.turned.renamed (toTurn_valid s hv) (toTurn_valid s' hv') hy hP).A, relMat_det]
    exact hd
  have h1 := (C72_linear env he s _ hT hv (toTurn_valid s hv) hdet avg).1
  have h2 := (C74_linear_partial env he _ _ h.turned (toTurn_valid s hv) (toTurn_valid s' hv') hy hP hd avg ha).1
  have h3 := (C72_linear env he s' _ hT' hv' (toTurn_valid s' hv') hd' avg).1
  rw [h3, h1] at h2
  simp only [Sim.solve_fields, if_true] at h2 ⊢
  have ht : s'.in_plane avg s'.eps_r (solver_direct env s'.A s'.rhs) = Spec.mirrorY3 (s.in_plane avg s.eps_r (solver_direct env s.A s.rhs)) := turn3_injective (Except.ok.inj h2)
  refine ⟨congrArg Except.ok ht, { h with fields := ?_ }⟩
  simp only [ht]
  rw [h.pol, h.fields, store_mirrorY]

/-- Regularity of the frozen and of the linearised systems is kept by a renaming of the cells. -/
theorem Renamed.regular {Mx My : ℕ} {σ : Fin Nx × Fin Ny ≃ Fin Mx × Fin My} {s : Sim Nx Ny} {s' : Sim Mx My} (h : Renamed σ s s') :
    (s.A.det ≠ 0 → s'.A.det ≠ 0) ∧ ((∀ F, (Angler.bornMat s F).det ≠ 0) → ∀ F, (Angler.bornMat s' F).det ≠ 0) ∧ ((∀ F, Spec.JacRegular s F) → ∀ F, Spec.JacRegular s' F) := by
  have hs : ∀ F : Grid Mx My ℂ, ∃ G : Grid Nx Ny ℂ, F = relabel σ G := fun F => ⟨relabel σ.symm F, by funext i j; simp [relabel]⟩
  refine ⟨fun hd => ?_, fun hd F => ?_, fun hd F => ?_⟩
  · rw [h.A, relMat_det]
    exact hd
  · obtain ⟨G, rfl⟩ := hs F
    rw [h.bornMat, relMat_det]
    exact hd G
  · obtain ⟨G, rfl⟩ := hs F
    unfold Spec.JacRegular
    rw [h.jac]
    show (Areal (relMat σ _) (relMat σ _)).det ≠ 0
    rw [Areal_relabel, Matrix.det_submatrix_equiv_self]
    exact hd G

theorem Renamed.symm {Mx My : ℕ} {σ : Fin Nx × Fin Ny ≃ Fin Mx × Fin My} {s : Sim Nx Ny} {s' : Sim Mx My} (h : Renamed σ s s') : Renamed σ.symm s' s := by
  refine ⟨h.omega.symm, h.L0.symm, h.pol.symm, ?_, ?_, ?_, ?_⟩
  · rw [h.eps_r]; funext i j; simp [relabel]
  · rw [h.src]; funext i j; simp [relabel]
  · rw [h.nonlinearity, List.map_map]
    refine (List.map_id' _).symm.trans (List.map_congr_left fun n _ => ?_)
    show n = _
    obtain ⟨c, r, sc⟩ := n
    simp only [Function.comp, relNl, Nonlinearity.mk.injEq, true_and, and_true]
    funext i j; simp [relabel]
  · rw [h.A]
    ext a b
    simp [relMat, relIdx]

/-- **C74, Kerr solves, the other axis (partial).** As `C74_nonlinear_partial`, for the mirror image along `y`. -/
theorem C74_nonlinear_y_partial (env : Env) (he : env.Exact) (s s' : Sim Nx Ny) (h : Spec.MirroredY s s') (hv : s.Valid) (hv' : s'.Valid) (hp : s.pol = .Ez) (hy : 1 < Ny) (hP : s.NPML.2 = 0)
    (hA : s.A.det ≠ 0) (hdet : ∀ F, (bornMat s F).det ≠ 0) (hjac : ∀ F, Spec.JacRegular s F) (E : Option (Grid Nx Ny ℂ)) (solver : NlSolver) (thr : ℝ) (n : ℕ) :
    (solve_fields_nl env s' (E.map Spec.mirrorY) solver thr n).1 =
        (solve_fields_nl env s E solver thr n).1.map (fun r => ⟨Spec.mirrorYHalf r.Fx, Spec.mirrorY r.Fy, Spec.mirrorY r.Fz, r.conv⟩) ∧
      Spec.mirrorYFields (solve_fields_nl env s E solver thr n).2.fields = (solve_fields_nl env s' (E.map Spec.mirrorY) solver thr n).2.fields ∧
      Spec.mirrorYFields (solve_fields_nl env s E solver thr n).2.fields_nl = (solve_fields_nl env s' (E.map Spec.mirrorY) solver thr n).2.fields_nl := by
  have hv1 := toTurn_valid s hv
  have hv2 := toTurn_valid s' hv'
  have r1 := (toTurn_turned s).renamed hv hv1
  have r2 := h.turned.renamed hv1 hv2 hy hP
  have r3 := ((toTurn_turned s').renamed hv' hv2).symm
  obtain ⟨h1, f1, g1⟩ := C72_nonlinear env he s _ (toTurn_turned s) hv hv1 hA hdet (fun _ => hjac) E solver thr n
  obtain ⟨h2, f2, g2⟩ := C74_nonlinear_partial env he _ _ h.turned hv1 hv2 hp hy hP (r1.regular.1 hA) (r1.regular.2.1 hdet) (r1.regular.2.2 hjac) (E.map Spec.turn) solver thr n
  have hA2 := r3.regular.1 (r2.regular.1 (r1.regular.1 hA))
  have hd2 := r3.regular.2.1 (r2.regular.2.1 (r1.regular.2.1 hdet))
  have hj2 := r3.regular.2.2 (r2.regular.2.2 (r1.regular.2.2 hjac))
  obtain ⟨h3, f3, g3⟩ := C72_nonlinear env he s' _ (toTurn_turned s') hv' hv2 hA2 hd2 (fun _ => hj2) (E.map Spec.mirrorY) solver thr n
  have hE : (E.map Spec.mirrorY).map Spec.turn = (E.map Spec.turn).map Spec.mirror := by
    cases E <;> rfl
  rw [hE] at f3 g3
  refine ⟨?_, turnFields_injective ?_, turnFields_injective ?_⟩
  rotate_left
  · rw [f3, ← f2, ← f1, mirrorFields_turnFields]
  · rw [g3, ← g2, ← g1, mirrorFields_turnFields]
  clear f1 f2 f3 g1 g2 g3
  rw [hE, h2, h1] at h3
  generalize (solve_fields_nl env s' (E.map Spec.mirrorY) solver thr n).1 = R' at h3 ⊢
  generalize (solve_fields_nl env s E solver thr n).1 = R at h3 ⊢
  rcases R with e | ⟨x, y, z, c⟩ <;> rcases R' with e' | ⟨x', y', z', c'⟩
  · exact congrArg Except.error (Except.error.inj h3).symm
  · cases h3
  · cases h3
  · have h4 := NlResult.mk.inj (Except.ok.inj h3)
    obtain ⟨a, b, d, f⟩ := h4
    have hx : x' = Spec.mirrorYHalf x := by
      funext i j
      have := congrFun (congrFun b j) i
      simp only [Spec.turnNeg, Spec.mirrorHalf] at this
      simp only [Spec.mirrorYHalf]
      linear_combination this
    have hy' : y' = Spec.mirrorY y := by
      funext i j
      have := congrFun (congrFun a j) i
      simp only [Spec.turnNeg, Spec.mirror] at this
      simp only [Spec.mirrorY]
      linear_combination this
    have hz : z' = Spec.mirrorY z := by
      funext i j
      exact (congrFun (congrFun d j) i).symm
    have hc : c' = c := f.symm
    rw [hx, hy', hz, hc]
    rfl

/-! ## Examples -/

/-- The mirror image of a simulation, freshly constructed. -/
noncomputable def toMirror (s : Sim Nx Ny) : Sim Nx Ny :=
  let r := construct_A s.omega (0, Nx * s.dl) (0, Ny * s.dl) (Spec.mirror s.eps_r) s.NPML s.pol s.L0
  { L0 := s.L0, omega := s.omega, dl := s.dl, NPML := s.NPML, pol := s.pol, xrange := (0, Nx * s.dl), yrange := (0, Ny * s.dl), src := Spec.mirror s.src,
    eps_r := Spec.mirror s.eps_r, A := r.1, derivs := r.2, fields := Spec.mirrorFields s.fields, fields_nl := Spec.mirrorFields s.fields_nl,
    nonlinearity := s.nonlinearity.map fun n => { chi := n.chi, nl_region := Spec.mirror n.nl_region, scale := n.scale },
    eps_nl := fun _ _ => 0, dnl_de := fun _ _ => 0, dnl_deps := fun _ _ => 0, Anl := none, rho := none }

theorem toMirror_mirrored (s : Sim Nx Ny) : Spec.Mirrored s (toMirror s) := ⟨rfl, rfl, rfl, rfl, rfl, rfl, rfl, rfl, rfl, rfl⟩

theorem toMirror_valid (s : Sim Nx Ny) (hv : s.Valid) : (toMirror s).Valid := ⟨hv.L0_pos, hv.omega_pos, rfl, rfl, rfl, construct_A_derivs _ _ _ _ _ _ _ _⟩

/-- Any device with permittivity of modulus at least one, on any grid. -/
example (env : Env) (he : env.Exact) (hx : 1 < Nx) (hy : 1 < Ny) (eps src : Grid Nx Ny ℂ) (hE : ∀ i j, 1 ≤ ‖eps i j‖) (avg : Bool) :
    ((toMirror (fsim 0 eps src)).solve_fields env false avg).1 = ((fsim 0 eps src).solve_fields env false avg).1.map Spec.mirror3 :=
  (C74_linear_partial env he _ _ (toMirror_mirrored _) (fsim_valid _ _ _) (toMirror_valid _ (fsim_valid _ _ _)) hx rfl (fsim_det hx hy _ _ _ hE) avg (Or.inl rfl)).1

/-- An Hz device with averaging. -/
example (env : Env) (he : env.Exact) : ((toMirror (wsim .Hz wEps wSrcHz)).solve_fields env false true).1 = ((wsim .Hz wEps wSrcHz).solve_fields env false true).1.map Spec.mirror3 :=
  (C74_linear_partial env he _ _ (toMirror_mirrored _) (wsim_valid .Hz wEps wSrcHz) (toMirror_valid _ (wsim_valid .Hz wEps wSrcHz)) one_lt_two rfl (wsim_Hz_det _) true (Or.inr rfl)).1

/-- Along the other axis, with a mirror image that is a different device. -/
example (env : Env) (he : env.Exact) (hx : 1 < Nx) (hy : 1 < Ny) (eps src : Grid Nx Ny ℂ) (hE : ∀ i j, 1 ≤ ‖eps i j‖) (avg : Bool) :
    ((fsim 0 (Spec.mirrorY eps) (Spec.mirrorY src)).solve_fields env false avg).1 = ((fsim 0 eps src).solve_fields env false avg).1.map Spec.mirrorY3 :=
  (C74_linear_y_partial env he (fsim 0 eps src) (fsim 0 (Spec.mirrorY eps) (Spec.mirrorY src)) ⟨rfl, rfl, rfl, rfl, rfl, rfl, rfl, rfl, by funext c; cases c <;> rfl, by funext c; cases c <;> rfl⟩ (fsim_valid _ _ _) (fsim_valid _ _ _) hy rfl (fsim_det hx hy _ _ _ hE) avg (Or.inl rfl)).1

/-- A Kerr device of any size without absorbing layers, any source, any starting field and any solver; along both axes. -/
example (env : Env) (he : env.Exact) (hx : 1 < Nx) (hy : 1 < Ny) (eps src : Grid Nx Ny ℂ) (hE : ∀ i j, 1 ≤ (eps i j).re) (E : Option (Grid Nx Ny ℂ)) (solver : NlSolver) (thr : ℝ) (n : ℕ) :
    (solve_fields_nl env (cksim 0 1 (Spec.mirror eps) (Spec.mirror src)) (E.map Spec.mirror) solver thr n).1 =
      (solve_fields_nl env (cksim 0 1 eps src) E solver thr n).1.map (fun r => ⟨Spec.mirror r.Fx, Spec.mirrorHalf r.Fy, Spec.mirror r.Fz, r.conv⟩) ∧
    (solve_fields_nl env (cksim 0 1 (Spec.mirrorY eps) (Spec.mirrorY src)) (E.map Spec.mirrorY) solver thr n).1 =
      (solve_fields_nl env (cksim 0 1 eps src) E solver thr n).1.map fun r => ⟨Spec.mirrorYHalf r.Fx, Spec.mirrorY r.Fy, Spec.mirrorY r.Fz, r.conv⟩ := by
  obtain ⟨r1, r2, r3⟩ := cksim_regular hx hy 0 1 zero_le_one eps src hE
  refine ⟨(C74_nonlinear_partial env he (cksim 0 1 eps src) (cksim 0 1 (Spec.mirror eps) (Spec.mirror src)) ⟨rfl, rfl, rfl, rfl, rfl, rfl, rfl, rfl, ?_, ?_⟩ (cksim_valid _ _ _ _)
    (cksim_valid _ _ _ _) rfl hx rfl r1 r2 r3 E solver thr n).1, (C74_nonlinear_y_partial env he (cksim 0 1 eps src) (cksim 0 1 (Spec.mirrorY eps) (Spec.mirrorY src))
    ⟨rfl, rfl, rfl, rfl, rfl, rfl, rfl, rfl, ?_, ?_⟩ (cksim_valid _ _ _ _) (cksim_valid _ _ _ _) rfl hy rfl r1 r2 r3 E solver thr n).1⟩
  · funext c; cases c <;> rfl
  · funext c; cases c <;> rfl
  · funext c; cases c <;> rfl
  · funext c; cases c <;> rfl

end Angler
