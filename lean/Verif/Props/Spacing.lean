import Verif.Model.Reshape
import Mathlib.Tactic.FieldSimp
import Mathlib.Tactic.Ring
import Mathlib.Tactic.NormNum

/-! # C56: grid spacing along histories of assignments -/

namespace Angler

/-- The derivative operators are the PML factors of the simulation times finite differences of spacing `(hx, hy)`. -/
def Spec.UsesSpacing (s : DynSim) (hx hy : ℝ) : Prop :=
  s.derivs.Dxf = (S_create s.omega s.L0 s.eps_r.Nx s.eps_r.Ny s.NPML s.xrange s.yrange).xf * createDws .x .f hx hy s.eps_r.Nx s.eps_r.Ny ∧
  s.derivs.Dxb = (S_create s.omega s.L0 s.eps_r.Nx s.eps_r.Ny s.NPML s.xrange s.yrange).xb * createDws .x .b hx hy s.eps_r.Nx s.eps_r.Ny ∧
  s.derivs.Dyf = (S_create s.omega s.L0 s.eps_r.Nx s.eps_r.Ny s.NPML s.xrange s.yrange).yf * createDws .y .f hx hy s.eps_r.Nx s.eps_r.Ny ∧
  s.derivs.Dyb = (S_create s.omega s.L0 s.eps_r.Nx s.eps_r.Ny s.NPML s.xrange s.yrange).yb * createDws .y .b hx hy s.eps_r.Nx s.eps_r.Ny

theorem construct_A_ops {Nx Ny : ℕ} (omega : ℝ) (xr yr : ℝ × ℝ) (eps : Grid Nx Ny ℂ) (NPML : ℕ × ℕ) (pol : Pol) (L0 : ℝ) :
    (construct_A omega xr yr eps NPML pol L0).2 = mkDerivs omega xr yr Nx Ny NPML L0 := by
  cases pol <;> rfl

/-- What holds after construction and any sequence of assignments, of any shapes: the ranges are those of the first shape, and the operators use the spacing `dL`. -/
theorem history_inv (omega : ℝ) (eps0 : AnyGrid) (dl : ℝ) (NPML : ℕ × ℕ) (pol : Pol) (L0 : ℝ) (hist : List AnyGrid) (s : DynSim)
    (hs : s = hist.foldl DynSim.assign (DynSim.create omega eps0 dl NPML pol L0)) :
    s.dl = dl ∧ s.xrange = (0, eps0.Nx * dl) ∧ s.yrange = (0, eps0.Ny * dl) ∧ s.eps_r = hist.getLastD eps0 ∧
      Spec.UsesSpacing s (dL s.eps_r.Nx s.eps_r.Ny s.xrange s.yrange).1 (dL s.eps_r.Nx s.eps_r.Ny s.xrange s.yrange).2 := by
  subst hs
  have gen : ∀ (hist : List AnyGrid) (s : DynSim), s.dl = dl → s.xrange = (0, eps0.Nx * dl) → s.yrange = (0, eps0.Ny * dl) →
      Spec.UsesSpacing s (dL s.eps_r.Nx s.eps_r.Ny s.xrange s.yrange).1 (dL s.eps_r.Nx s.eps_r.Ny s.xrange s.yrange).2 →
      (hist.foldl DynSim.assign s).dl = dl ∧ (hist.foldl DynSim.assign s).xrange = (0, eps0.Nx * dl) ∧ (hist.foldl DynSim.assign s).yrange = (0, eps0.Ny * dl) ∧
      (hist.foldl DynSim.assign s).eps_r = hist.getLastD s.eps_r ∧
      Spec.UsesSpacing (hist.foldl DynSim.assign s) (dL (hist.foldl DynSim.assign s).eps_r.Nx (hist.foldl DynSim.assign s).eps_r.Ny (hist.foldl DynSim.assign s).xrange
        (hist.foldl DynSim.assign s).yrange).1 (dL (hist.foldl DynSim.assign s).eps_r.Nx (hist.foldl DynSim.assign s).eps_r.Ny (hist.foldl DynSim.assign s).xrange
        (hist.foldl DynSim.assign s).yrange).2 := by
    intro hist
    induction hist with
    | nil => exact fun s h1 h2 h3 h4 => ⟨h1, h2, h3, rfl, h4⟩
    | cons g rest ih =>
      intro s h1 h2 h3 _
      rw [List.foldl_cons]
      have hd : (s.assign g).derivs = mkDerivs s.omega s.xrange s.yrange g.Nx g.Ny s.NPML s.L0 := construct_A_ops _ _ _ _ _ _ _
      obtain ⟨k1, k2, k3, k4, k5⟩ := ih (s.assign g) h1 h2 h3 ⟨congrArg Derivs.Dxf hd, congrArg Derivs.Dxb hd, congrArg Derivs.Dyf hd, congrArg Derivs.Dyb hd⟩
      refine ⟨k1, k2, k3, k4.trans ?_, k5⟩
      cases rest <;> rfl
  refine gen hist _ rfl rfl rfl ?_
  have hd : (DynSim.create omega eps0 dl NPML pol L0).derivs = mkDerivs omega (0, eps0.Nx * dl) (0, eps0.Ny * dl) eps0.Nx eps0.Ny NPML L0 := construct_A_ops _ _ _ _ _ _ _
  exact ⟨congrArg Derivs.Dxf hd, congrArg Derivs.Dxb hd, congrArg Derivs.Dyf hd, congrArg Derivs.Dyb hd⟩

/-- **C56 (partial).** After construction and any history of assignments, if the current shape is the one given to the constructor, the derivative operators use the spacing `(dl, dl)`.
Missing: other current shapes, where it fails (`C56_false`). -/
theorem C56_spacing_partial (omega : ℝ) (eps0 : AnyGrid) (dl : ℝ) (NPML : ℕ × ℕ) (pol : Pol) (L0 : ℝ) (hist : List AnyGrid) (s : DynSim)
    (hs : s = hist.foldl DynSim.assign (DynSim.create omega eps0 dl NPML pol L0)) (hx : 0 < eps0.Nx) (hy : 0 < eps0.Ny) (h1 : s.eps_r.Nx = eps0.Nx) (h2 : s.eps_r.Ny = eps0.Ny) :
    s.dl = dl ∧ dL s.eps_r.Nx s.eps_r.Ny s.xrange s.yrange = (dl, dl) ∧ Spec.UsesSpacing s dl dl := by
  obtain ⟨k1, k2, k3, -, k5⟩ := history_inv omega eps0 dl NPML pol L0 hist s hs
  have hx' : (eps0.Nx : ℝ) ≠ 0 := by exact_mod_cast hx.ne'
  have hy' : (eps0.Ny : ℝ) ≠ 0 := by exact_mod_cast hy.ne'
  have hdL : dL s.eps_r.Nx s.eps_r.Ny s.xrange s.yrange = (dl, dl) := by
    rw [k2, k3, h1, h2]
    unfold dL
    simp only [sub_zero]
    rw [mul_div_cancel_left₀ _ hx', mul_div_cancel_left₀ _ hy']
  refine ⟨k1, hdL, ?_⟩
  rw [hdL] at k5
  exact k5

/-- **C56, negation.** After any history that ends in a different number of columns (resp. rows), the spacing the operators use along that axis is not `dl`, although the attribute `dl` still
says so. -/
theorem C56_false (omega : ℝ) (eps0 : AnyGrid) (dl : ℝ) (hdl : dl ≠ 0) (NPML : ℕ × ℕ) (pol : Pol) (L0 : ℝ) (hist : List AnyGrid) (s : DynSim)
    (hs : s = hist.foldl DynSim.assign (DynSim.create omega eps0 dl NPML pol L0)) (hx : 0 < s.eps_r.Nx) (hy : 0 < s.eps_r.Ny) :
    s.dl = dl ∧ Spec.UsesSpacing s (eps0.Nx * dl / s.eps_r.Nx) (eps0.Ny * dl / s.eps_r.Ny) ∧
      (s.eps_r.Nx ≠ eps0.Nx → eps0.Nx * dl / s.eps_r.Nx ≠ dl) ∧ (s.eps_r.Ny ≠ eps0.Ny → eps0.Ny * dl / s.eps_r.Ny ≠ dl) := by
  obtain ⟨k1, k2, k3, -, k5⟩ := history_inv omega eps0 dl NPML pol L0 hist s hs
  have hx' : (s.eps_r.Nx : ℝ) ≠ 0 := by exact_mod_cast hx.ne'
  have hy' : (s.eps_r.Ny : ℝ) ≠ 0 := by exact_mod_cast hy.ne'
  refine ⟨k1, ?_, fun hne h => hne ?_, fun hne h => hne ?_⟩
  · have hdL : dL s.eps_r.Nx s.eps_r.Ny s.xrange s.yrange = (eps0.Nx * dl / s.eps_r.Nx, eps0.Ny * dl / s.eps_r.Ny) := by
      rw [k2, k3]
      unfold dL
      simp only [sub_zero]
    rw [hdL] at k5
    exact k5
  · rw [div_eq_iff hx', mul_comm dl] at h
    exact_mod_cast (mul_right_cancel₀ hdl h).symm
  · rw [div_eq_iff hy', mul_comm dl] at h
    exact_mod_cast (mul_right_cancel₀ hdl h).symm

/-- A concrete history: a 2 × 2 simulation with `dl = 1`, given a 4 × 2 permittivity and then a 2 × 2 one; in between the spacing in `x` is 1/2. -/
example (omega L0 : ℝ) (e0 e2 : Grid 2 2 ℂ) (e1 : Grid 4 2 ℂ) :
    Spec.UsesSpacing ((DynSim.create omega ⟨2, 2, e0⟩ 1 (0, 0) .Ez L0).assign ⟨4, 2, e1⟩) (1 / 2) 1 ∧
    Spec.UsesSpacing (((DynSim.create omega ⟨2, 2, e0⟩ 1 (0, 0) .Ez L0).assign ⟨4, 2, e1⟩).assign ⟨2, 2, e2⟩) 1 1 := by
  constructor
  · have h := (C56_false omega ⟨2, 2, e0⟩ 1 one_ne_zero (0, 0) .Ez L0 [⟨4, 2, e1⟩] _ rfl (Nat.succ_pos 3) Nat.zero_lt_two).2.1
    have h : Spec.UsesSpacing ((DynSim.create omega ⟨2, 2, e0⟩ 1 (0, 0) .Ez L0).assign ⟨4, 2, e1⟩) (((2 : ℕ) : ℝ) * 1 / ((4 : ℕ) : ℝ)) (((2 : ℕ) : ℝ) * 1 / ((2 : ℕ) : ℝ)) := h
    have h2 : (((2 : ℕ) : ℝ) * 1 / ((4 : ℕ) : ℝ)) = 1 / 2 := by norm_num
    have h3 : (((2 : ℕ) : ℝ) * 1 / ((2 : ℕ) : ℝ)) = 1 := by norm_num
    rw [h2, h3] at h
    exact h
  · exact (C56_spacing_partial omega ⟨2, 2, e0⟩ 1 (0, 0) .Ez L0 [⟨4, 2, e1⟩, ⟨2, 2, e2⟩] _ rfl Nat.zero_lt_two Nat.zero_lt_two rfl rfl).2.2

end Angler
