import Verif.Model.PortObjectives
import Verif.Props.Gauge
import Verif.Props.Mirror
import Verif.Props.NonlinearSolve
import Verif.Props.GradientEz
import Verif.Lemmas.Objectives
import Mathlib.Analysis.MeanInequalities

/-! # C105 (the objectives of the port and splitter notebooks) -/

namespace Angler

variable {Nx Ny Mx My : ℕ}

/-! ## Specification -/

/-- The part of the field that goes through a port with weights `w`. -/
noncomputable def Spec.through (w : Grid Nx Ny ℝ) (e : Grid Nx Ny ℂ) : ℝ := ∑ i, ∑ j, w i j * ‖e i j‖ ^ 2

/-- The weights squared. -/
def Spec.sq (w : Grid Nx Ny ℝ) : Grid Nx Ny ℝ := fun i j => w i j ^ 2

/-! ## Derivatives -/

theorem overlap_hasFDerivAt {n : ℕ} (k : Fin n) (w : Grid Nx Ny ℝ) (x : Fin n → Grid Nx Ny ℂ) :
    ∃ L : (Fin n → Grid Nx Ny ℂ) →L[ℝ] ℝ, (∀ δ, L δ = ∑ i, ∑ j, (overlapGrad w (x k) i j * δ k i j).re) ∧ HasFDerivAt (fun x : Fin n → Grid Nx Ny ℂ => overlap w (x k)) L x := by
  refine ⟨∑ i, ∑ j, w i j • ((2 * (x k i j).re) • (Complex.reCLM.comp (entryCLM n k i j)) + (2 * (x k i j).im) • (Complex.imCLM.comp (entryCLM n k i j))), fun δ => ?_, ?_⟩
  · simp only [_root_.sum_apply, _root_.add_apply, _root_.smul_apply, ContinuousLinearMap.comp_apply, entryCLM_apply,
      Complex.reCLM_apply, Complex.imCLM_apply, smul_eq_mul]
    refine Finset.sum_congr rfl fun i _ => Finset.sum_congr rfl fun j _ => ?_
    simp only [overlapGrad, Complex.mul_re, Complex.mul_im, Complex.conj_re, Complex.conj_im, Complex.re_ofNat, Complex.im_ofNat, Complex.ofReal_re, Complex.ofReal_im]
    ring
  · have e : (fun x : Fin n → Grid Nx Ny ℂ => overlap w (x k)) = fun x => ∑ i, ∑ j, w i j * ((x k i j).re ^ 2 + (x k i j).im ^ 2) := by
      funext x
      refine Finset.sum_congr rfl fun i _ => Finset.sum_congr rfl fun j _ => ?_
      rw [Complex.sq_norm, Complex.normSq_apply]
      ring
    rw [e]
    refine HasFDerivAt.fun_sum fun i _ => HasFDerivAt.fun_sum fun j _ => ?_
    have h1 := ((Complex.reCLM.comp (entryCLM (Nx := Nx) (Ny := Ny) n k i j)).hasFDerivAt (x := x)).pow 2
    have h2 := ((Complex.imCLM.comp (entryCLM (Nx := Nx) (Ny := Ny) n k i j)).hasFDerivAt (x := x)).pow 2
    refine ((h1.add h2).const_mul (w i j)).congr_fderiv ?_
    ext δ
    simp [entryCLM_apply]

theorem overlapSq_eq (w : Grid Nx Ny ℝ) (e : Grid Nx Ny ℂ) : overlapSq w e = overlap (fun i j => w i j ^ 2) e := by
  refine Finset.sum_congr rfl fun i _ => Finset.sum_congr rfl fun j _ => ?_
  rw [norm_mul, mul_pow, Complex.norm_real, Real.norm_eq_abs, sq_abs]

theorem overlapSqGrad_eq (w : Grid Nx Ny ℝ) (e : Grid Nx Ny ℂ) : overlapSqGrad w e = overlapGrad (fun i j => w i j ^ 2) e := by
  funext i j
  simp only [overlapSqGrad, overlapGrad, map_mul, Complex.conj_ofReal]
  push_cast
  ring

theorem overlapSq_hasFDerivAt {n : ℕ} (k : Fin n) (w : Grid Nx Ny ℝ) (x : Fin n → Grid Nx Ny ℂ) :
    ∃ L : (Fin n → Grid Nx Ny ℂ) →L[ℝ] ℝ, (∀ δ, L δ = ∑ i, ∑ j, (overlapSqGrad w (x k) i j * δ k i j).re) ∧ HasFDerivAt (fun x : Fin n → Grid Nx Ny ℂ => overlapSq w (x k)) L x := by
  obtain ⟨L, h1, h2⟩ := overlap_hasFDerivAt k (fun i j => w i j ^ 2) x
  refine ⟨L, fun δ => by rw [h1, overlapSqGrad_eq], ?_⟩
  rw [show (fun x : Fin n → Grid Nx Ny ℂ => overlapSq w (x k)) = fun x => overlap (fun i j => w i j ^ 2) (x k) from funext fun x => overlapSq_eq w (x k)]
  exact h2

theorem sum_re_smul (c : ℝ) (g δ : Grid Nx Ny ℂ) : c * ∑ i, ∑ j, (g i j * δ i j).re = ∑ i, ∑ j, ((c : ℂ) * g i j * δ i j).re := by
  simp only [Finset.mul_sum]
  refine Finset.sum_congr rfl fun i _ => Finset.sum_congr rfl fun j _ => ?_
  rw [mul_assoc, Complex.re_ofReal_mul]

theorem sum_re_add (g g' δ : Grid Nx Ny ℂ) : ∑ i, ∑ j, (g i j * δ i j).re + ∑ i, ∑ j, (g' i j * δ i j).re = ∑ i, ∑ j, ((g i j + g' i j) * δ i j).re := by
  simp only [← Finset.sum_add_distrib]
  refine Finset.sum_congr rfl fun i _ => Finset.sum_congr rfl fun j _ => ?_
  rw [add_mul, Complex.add_re]

theorem loop_prod (n : ℝ) (l : List (Grid Nx Ny ℝ)) (e : Grid Nx Ny ℂ) (a : ℝ) : l.foldl (fun objfn w => objfn * (n * overlapSq w e)) a = a * (l.map fun w => n * overlapSq w e).prod := by
  induction l generalizing a with
  | nil => simp
  | cons w l ih => rw [List.foldl_cons, ih, List.map_cons, List.prod_cons, mul_assoc]

theorem splitterN_eval (l : List (Grid Nx Ny ℝ)) (x : Fin 1 → Grid Nx Ny ℂ) : (splitterNJ l).eval x = ∏ k : Fin l.length, (l.length : ℝ) * overlapSq (l.get k) (x 0) := by
  show l.foldl _ 1 = _
  rw [loop_prod, one_mul, ← List.prod_ofFn]
  refine congrArg List.prod (List.ext_get (by simp) fun k h h' => by simp)

theorem two_autograd (J : Grid Nx Ny ℝ) (x : Fin 2 → Grid Nx Ny ℂ) : ∃ L : (Fin 2 → Grid Nx Ny ℂ) →L[ℝ] ℝ,
    (∀ δ, L δ = ∑ k : Fin 2, ∑ i, ∑ j, ((if k = 0 then overlapGrad J (x 0) i j else -overlapGrad J (x 1) i j) * δ k i j).re) ∧
      HasFDerivAt (fun x : Fin 2 → Grid Nx Ny ℂ => 1 * overlap J (x 0) + -1 * overlap J (x 1)) L x := by
  obtain ⟨L0, h0, g0⟩ := overlap_hasFDerivAt (0 : Fin 2) J x
  obtain ⟨L1, h1, g1⟩ := overlap_hasFDerivAt (1 : Fin 2) J x
  refine ⟨(1 : ℝ) • L0 + (-1 : ℝ) • L1, fun δ => ?_, (g0.const_mul 1).add (g1.const_mul (-1))⟩
  rw [Fin.sum_univ_two, _root_.add_apply, _root_.smul_apply, _root_.smul_apply, h0, h1, smul_eq_mul, smul_eq_mul, sum_re_smul, sum_re_smul]
  simp

/-- The difference of two ports, for the linear minus the nonlinear field. -/
theorem diff_autograd (J J' : Grid Nx Ny ℝ) (x : Fin 2 → Grid Nx Ny ℂ) : ∃ L : (Fin 2 → Grid Nx Ny ℂ) →L[ℝ] ℝ,
    (∀ δ, L δ = ∑ k : Fin 2, ∑ i, ∑ j, ((if k = 0 then (overlapGrad J (x 0) i j - overlapGrad J' (x 0) i j) / 2 else (overlapGrad J' (x 1) i j - overlapGrad J (x 1) i j) / 2) * δ k i j).re) ∧
      HasFDerivAt (fun x : Fin 2 → Grid Nx Ny ℂ => 1 / 2 * overlap J (x 0) + -1 / 2 * overlap J (x 1) + (-1 / 2 * overlap J' (x 0) + 1 / 2 * overlap J' (x 1))) L x := by
  obtain ⟨L0, h0, g0⟩ := overlap_hasFDerivAt (0 : Fin 2) J x
  obtain ⟨L1, h1, g1⟩ := overlap_hasFDerivAt (1 : Fin 2) J x
  obtain ⟨L2, h2, g2⟩ := overlap_hasFDerivAt (0 : Fin 2) J' x
  obtain ⟨L3, h3, g3⟩ := overlap_hasFDerivAt (1 : Fin 2) J' x
  refine ⟨(1 / 2 : ℝ) • L0 + (-1 / 2 : ℝ) • L1 + ((-1 / 2 : ℝ) • L2 + (1 / 2 : ℝ) • L3), fun δ => ?_, ((g0.const_mul _).add (g1.const_mul _)).add ((g2.const_mul _).add (g3.const_mul _))⟩
  rw [Fin.sum_univ_two]
  simp only [_root_.add_apply, _root_.smul_apply, h0, h1, h2, h3, smul_eq_mul, sum_re_smul, if_true, one_ne_zero, if_false]
  rw [add_add_add_comm, sum_re_add (fun i j => ((1 / 2 : ℝ) : ℂ) * overlapGrad J (x 0) i j) (fun i j => ((-1 / 2 : ℝ) : ℂ) * overlapGrad J' (x 0) i j) (δ 0),
    sum_re_add (fun i j => ((-1 / 2 : ℝ) : ℂ) * overlapGrad J (x 1) i j) (fun i j => ((1 / 2 : ℝ) : ℂ) * overlapGrad J' (x 1) i j) (δ 1)]
  refine congrArg₂ (· + ·) ?_ ?_ <;>
  · refine Finset.sum_congr rfl fun i _ => Finset.sum_congr rfl fun j _ => congrArg Complex.re ?_
    push_cast
    ring

theorem splitter_autograd (J J' : Grid Nx Ny ℝ) (x : Fin 1 → Grid Nx Ny ℂ) : ∃ L : (Fin 1 → Grid Nx Ny ℂ) →L[ℝ] ℝ,
    (∀ δ, L δ = ∑ k : Fin 1, ∑ i, ∑ j, (4 * ((overlapSq J' (x 0) : ℂ) * overlapSqGrad J (x 0) i j + (overlapSq J (x 0) : ℂ) * overlapSqGrad J' (x 0) i j) * δ k i j).re) ∧
      HasFDerivAt (fun x : Fin 1 → Grid Nx Ny ℂ => 4 * (overlapSq J (x 0) * overlapSq J' (x 0))) L x := by
  obtain ⟨L0, h0, g0⟩ := overlapSq_hasFDerivAt (0 : Fin 1) J x
  obtain ⟨L1, h1, g1⟩ := overlapSq_hasFDerivAt (0 : Fin 1) J' x
  refine ⟨(4 : ℝ) • (overlapSq J (x 0) • L1 + overlapSq J' (x 0) • L0), fun δ => ?_, (g0.mul g1).const_mul 4⟩
  rw [Fin.sum_univ_one]
  simp only [_root_.add_apply, _root_.smul_apply, h0, h1, smul_eq_mul, sum_re_smul]
  rw [sum_re_add (fun i j => (overlapSq J (x 0) : ℂ) * overlapSqGrad J' (x 0) i j) (fun i j => (overlapSq J' (x 0) : ℂ) * overlapSqGrad J (x 0) i j) (δ 0),
    sum_re_smul 4 (fun i j => (overlapSq J (x 0) : ℂ) * overlapSqGrad J' (x 0) i j + (overlapSq J' (x 0) : ℂ) * overlapSqGrad J (x 0) i j) (δ 0)]
  refine Finset.sum_congr rfl fun i _ => Finset.sum_congr rfl fun j _ => congrArg Complex.re ?_
  push_cast
  ring

theorem splitterN_autograd (l : List (Grid Nx Ny ℝ)) (x : Fin 1 → Grid Nx Ny ℂ) : ∃ L : (Fin 1 → Grid Nx Ny ℂ) →L[ℝ] ℝ,
    (∀ δ, L δ = ∑ d : Fin 1, ∑ i, ∑ j, ((∑ k : Fin l.length, ((∏ m ∈ Finset.univ.erase k, (l.length * overlapSq (l.get m) (x 0)) : ℝ) : ℂ) * (l.length * overlapSqGrad (l.get k) (x 0) i j)) * δ d i j).re) ∧
      HasFDerivAt (fun x : Fin 1 → Grid Nx Ny ℂ => ∏ k : Fin l.length, (l.length : ℝ) * overlapSq (l.get k) (x 0)) L x := by
  have hL := fun k : Fin l.length => overlapSq_hasFDerivAt (0 : Fin 1) (l.get k) x
  choose L h g using hL
  refine ⟨∑ k : Fin l.length, (∏ m ∈ Finset.univ.erase k, (l.length : ℝ) * overlapSq (l.get m) (x 0)) • ((l.length : ℝ) • L k), fun δ => ?_,
    HasFDerivAt.finsetProd fun k _ => (g k).const_mul (l.length : ℝ)⟩
  rw [Fin.sum_univ_one]
  simp only [_root_.sum_apply, _root_.smul_apply, h, smul_eq_mul]
  simp only [Finset.sum_mul, Complex.re_sum, Finset.mul_sum]
  rw [Finset.sum_comm]
  refine Finset.sum_congr rfl fun i _ => ?_
  rw [Finset.sum_comm]
  refine Finset.sum_congr rfl fun j _ => Finset.sum_congr rfl fun k _ => ?_
  rw [mul_assoc (_ : ℂ), Complex.re_ofReal_mul, mul_assoc (_ : ℂ), ← Complex.ofReal_natCast, Complex.re_ofReal_mul]

/-- **C105, derivatives.** For all five objectives autograd's gradients are the derivatives. -/
theorem C105_autograd : (∀ (J : Grid Nx Ny ℝ) x, Spec.Autograd (twoPortJ J) x) ∧ (∀ (J J' : Grid Nx Ny ℝ) x, Spec.Autograd (threePortJ J J') x) ∧
    (∀ (J J' : Grid Nx Ny ℝ) x, Spec.Autograd (tPortJ J J') x) ∧ (∀ (J J' : Grid Nx Ny ℝ) x, Spec.Autograd (splitterJ J J') x) ∧
    ∀ (l : List (Grid Nx Ny ℝ)) x, Spec.Autograd (splitterNJ l) x := by
  refine ⟨fun J x => two_autograd J x, fun J J' x => ?_, fun J J' x => ?_, fun J J' x => ?_, fun l x => ?_⟩
  · obtain ⟨L, h1, h2⟩ := diff_autograd J J' x
    refine ⟨L, h1, h2.congr_of_eventuallyEq (Filter.Eventually.of_forall fun (x : Fin 2 → Grid Nx Ny ℂ) => ?_)⟩
    show ((1 * overlap J (x 0) - 1 * overlap J (x 1)) + (1 * overlap J' (x 1) - 1 * overlap J' (x 0))) / 2 = _
    ring
  · obtain ⟨L, h1, h2⟩ := diff_autograd J J' x
    refine ⟨L, h1, h2.congr_of_eventuallyEq (Filter.Eventually.of_forall fun (x : Fin 2 → Grid Nx Ny ℂ) => ?_)⟩
    show (1 * overlap J (x 0) + -1 * overlap J' (x 0) + -1 * overlap J (x 1) + 1 * overlap J' (x 1)) / 2 = _
    ring
  · obtain ⟨L, h1, h2⟩ := splitter_autograd J J' x
    refine ⟨L, h1, h2.congr_of_eventuallyEq (Filter.Eventually.of_forall fun (x : Fin 1 → Grid Nx Ny ℂ) => ?_)⟩
    show 1 * overlapSq J (x 0) * (1 * overlapSq J' (x 0)) * 4 = _
    ring
  · obtain ⟨L, h1, h2⟩ := splitterN_autograd l x
    exact ⟨L, h1, h2.congr_of_eventuallyEq (Filter.Eventually.of_forall fun (x : Fin 1 → Grid Nx Ny ℂ) => splitterN_eval l x)⟩

/-! ## Values -/

theorem overlap_through (w : Grid Nx Ny ℝ) (e : Grid Nx Ny ℂ) : overlap w e = Spec.through w e := Finset.sum_congr rfl fun _ _ => Finset.sum_congr rfl fun _ _ => mul_comm _ _

theorem overlapSq_through (w : Grid Nx Ny ℝ) (e : Grid Nx Ny ℂ) : overlapSq w e = Spec.through (Spec.sq w) e := (overlapSq_eq w e).trans (overlap_through _ e)

theorem through_nonneg {w : Grid Nx Ny ℝ} (hw : ∀ i j, 0 ≤ w i j) (e : Grid Nx Ny ℂ) : 0 ≤ Spec.through w e :=
  Finset.sum_nonneg fun i _ => Finset.sum_nonneg fun j _ => mul_nonneg (hw i j) (by positivity)

theorem sq_weights_nonneg (w : Grid Nx Ny ℝ) (i : Fin Nx) (j : Fin Ny) : 0 ≤ Spec.sq w i j := sq_nonneg _

theorem through_div (w : Grid Nx Ny ℝ) (e : Grid Nx Ny ℂ) (S : ℝ) : Spec.through (fun i j => w i j / S) e = Spec.through w e / S := by
  unfold Spec.through
  simp only [Finset.sum_div]
  refine Finset.sum_congr rfl fun i _ => Finset.sum_congr rfl fun j _ => ?_
  ring

theorem through_times (w : Grid Nx Ny ℝ) (e : Grid Nx Ny ℂ) (u : ℂ) : Spec.through w (Spec.times u e) = ‖u‖ ^ 2 * Spec.through w e := by
  unfold Spec.through
  simp only [Finset.mul_sum]
  refine Finset.sum_congr rfl fun i _ => Finset.sum_congr rfl fun j _ => ?_
  rw [Spec.times, norm_mul]
  ring

theorem sq_div (w : Grid Nx Ny ℝ) (S : ℝ) (hS : 0 ≤ S) : Spec.sq (fun i j => w i j / Real.sqrt S) = fun i j => Spec.sq w i j / S := by
  funext i j
  simp only [Spec.sq]
  rw [div_pow, Real.sq_sqrt hS]

/-- **C105, values.** What the five objectives compute: the two-port objective is the loss of transmission caused by the nonlinearity, those of the three-port and T devices half the change of the
difference between the ports, those of the splitters `N^N` times the product of the transmissions. -/
theorem C105_values (J J' : Grid Nx Ny ℝ) (l : List (Grid Nx Ny ℝ)) (e f : Grid Nx Ny ℂ) :
    (twoPortJ J).call [e, f] = .ok (Spec.through J e - Spec.through J f) ∧
    (threePortJ J J').call [e, f] = .ok (((Spec.through J e - Spec.through J' e) - (Spec.through J f - Spec.through J' f)) / 2) ∧
    (tPortJ J J').call [e, f] = .ok (((Spec.through J e - Spec.through J' e) - (Spec.through J f - Spec.through J' f)) / 2) ∧
    (splitterJ J J').call [e] = .ok (2 ^ 2 * (Spec.through (Spec.sq J) e * Spec.through (Spec.sq J') e)) ∧
    (splitterNJ l).call [e] = .ok (l.length ^ l.length * (l.map fun w => Spec.through (Spec.sq w) e).prod) := by
  refine ⟨congrArg Except.ok ?_, congrArg Except.ok ?_, congrArg Except.ok ?_, congrArg Except.ok ?_, congrArg Except.ok ?_⟩
  · show 1 * overlap J e + -1 * overlap J f = _
    rw [overlap_through, overlap_through]
    ring
  · show ((1 * overlap J e - 1 * overlap J f) + (1 * overlap J' f - 1 * overlap J' e)) / 2 = _
    simp only [overlap_through]
    ring
  · show (1 * overlap J e + -1 * overlap J' e + -1 * overlap J f + 1 * overlap J' f) / 2 = _
    simp only [overlap_through]
    ring
  · show 1 * overlapSq J e * (1 * overlapSq J' e) * 4 = _
    simp only [overlapSq_through]
    ring
  · show l.foldl (fun objfn w => objfn * (l.length * overlapSq w e)) 1 = _
    rw [loop_prod, one_mul]
    simp only [overlapSq_through]
    generalize hn : (l.length : ℝ) = n
    have : ∀ l : List (Grid Nx Ny ℝ), (l.map fun w => n * Spec.through (Spec.sq w) e).prod = n ^ l.length * (l.map fun w => Spec.through (Spec.sq w) e).prod := by
      intro l
      induction l with
      | nil => simp
      | cons w l ih =>
        rw [List.map_cons, List.prod_cons, ih, List.map_cons, List.prod_cons, List.length_cons]
        ring
    exact this l

/-- **C105, without Kerr media the switches do nothing**: in a device whose nonlinearities have `χ = 0` the objectives of the 2-port, 3-port and T devices are zero, whatever solver is used. -/
theorem C105_no_kerr (env : Env) (s : Sim Nx Ny) (h : ∀ n ∈ s.nonlinearity, n.chi = 0) (E : Option (Grid Nx Ny ℂ)) (solver : NlSolver) (thr : ℝ) (n : ℕ) (r : NlResult Nx Ny) (s' : Sim Nx Ny)
    (hr : solve_fields_nl env s E solver thr n = (.ok r, s')) (J J' : Grid Nx Ny ℝ) :
    ∃ t, (s.solve_fields env).1 = .ok t ∧ (twoPortJ J).call [t.2.2, r.Fz] = .ok 0 ∧ (threePortJ J J').call [t.2.2, r.Fz] = .ok 0 ∧ (tPortJ J J').call [t.2.2, r.Fz] = .ok 0 := by
  refine ⟨_, (C28_no_nonlinearity env s h E solver thr n r s' hr).1, ?_⟩
  obtain ⟨h1, h2, h3, -⟩ := C105_values J J' [] r.Fz r.Fz
  rw [h1, h2, h3, sub_self, sub_self, zero_div]
  exact ⟨rfl, rfl, rfl⟩

/-! ## Normalisation -/

theorem divPort_ok (w : Grid Nx Ny ℝ) {S : ℝ} (hS : S ≠ 0) : divPort w S = .ok fun i j => w i j / S := if_neg hS

theorem divPorts_ok (l : List (Grid Nx Ny ℝ)) {S : ℝ} (hS : 0 < S) : divPorts l S = .ok (l.map fun w i j => w i j / Real.sqrt S) := by
  unfold divPorts
  induction l with
  | nil => rfl
  | cons w l ih =>
    rw [List.mapM_cons, ih, divPortSqrt, divPort_ok w (Real.sqrt_pos.mpr hS).ne']
    rfl

/-- **C105, the straight waveguide transmits one.** With the field of the straight waveguide, the port itself and the scale computed from both, the normalised transmission is 1; if no light reaches
the port the division gives no finite weights. -/
theorem C105_straight (J : Grid Nx Ny ℝ) (Ez : Grid Nx Ny ℂ) :
    (Spec.through J Ez ≠ 0 → ∃ w, divPort J (overlap J Ez) = .ok w ∧ Spec.through w Ez = 1) ∧ (Spec.through J Ez = 0 → divPort J (overlap J Ez) = .error .nonFinite) ∧
    (Spec.through (Spec.sq J) Ez ≠ 0 → ∃ w, divPortSqrt J (overlapSq J Ez) = .ok w ∧ Spec.through (Spec.sq w) Ez = 1) ∧
    (Spec.through (Spec.sq J) Ez = 0 → divPortSqrt J (overlapSq J Ez) = .error .nonFinite) := by
  refine ⟨fun h => ⟨_, divPort_ok J (by rw [overlap_through]; exact h), ?_⟩, fun h => if_pos (by rw [overlap_through]; exact h), fun h => ?_, fun h => if_pos (by rw [overlapSq_through, h, Real.sqrt_zero])⟩
  · rw [through_div, overlap_through, div_self h]
  · have h0 := through_nonneg (sq_weights_nonneg J) Ez
    have hp : 0 < Spec.through (Spec.sq J) Ez := lt_of_le_of_ne h0 (Ne.symm h)
    refine ⟨_, divPort_ok J (by rw [overlapSq_through]; exact (Real.sqrt_pos.mpr hp).ne'), ?_⟩
    rw [overlapSq_through, sq_div _ _ h0, through_div, div_self h]

/-- **C105, the strength and the phase of the source are immaterial (linear devices).** When the sources of the device and of the straight waveguide are both multiplied by `u ≠ 0`, the objectives of
both splitter notebooks keep their values. -/
theorem C105_power (env : Env) (he : env.Exact) (u : ℂ) (hu : u ≠ 0) (s s' : Sim Nx Ny) (h : Spec.Amplified u s s') (hv : s.Valid) (hv' : s'.Valid) (hdet : s.A.det ≠ 0)
    (g g' : Sim Mx My) (hg : Spec.Amplified u g g') (hgv : g.Valid) (hgv' : g'.Valid) (hgdet : g.A.det ≠ 0) (J_out : Grid Mx My ℝ) (J_top J_bot : Grid Nx Ny ℝ) (J_list : List (Grid Nx Ny ℝ)) :
    ∃ t t' q q', (s.solve_fields env).1 = .ok t ∧ (s'.solve_fields env).1 = .ok t' ∧ (g.solve_fields env).1 = .ok q ∧ (g'.solve_fields env).1 = .ok q' ∧
      (Spec.through (Spec.sq J_out) q.2.2 ≠ 0 → ∃ a b a' b' l l', divPortSqrt J_top (overlapSq J_out q.2.2) = .ok a ∧ divPortSqrt J_bot (overlapSq J_out q.2.2) = .ok b ∧
        divPortSqrt J_top (overlapSq J_out q'.2.2) = .ok a' ∧ divPortSqrt J_bot (overlapSq J_out q'.2.2) = .ok b' ∧
        divPorts J_list (overlapSq J_out q.2.2) = .ok l ∧ divPorts J_list (overlapSq J_out q'.2.2) = .ok l' ∧
        (splitterJ a' b').call [t'.2.2] = (splitterJ a b).call [t.2.2] ∧ (splitterNJ l').call [t'.2.2] = (splitterNJ l).call [t.2.2]) := by
  have h1 := (C78_linear env he u s s' h hv hv' hdet false).1
  have h2 := (C78_linear env he u g g' hg hgv hgv' hgdet false).1
  obtain ⟨t, ht⟩ : ∃ t, (s.solve_fields env false false).1 = .ok t := ⟨_, rfl⟩
  obtain ⟨q, hq⟩ : ∃ q, (g.solve_fields env false false).1 = .ok q := ⟨_, rfl⟩
  rw [ht] at h1
  rw [hq] at h2
  refine ⟨t, _, q, _, ht, h1, hq, h2, fun hne => ?_⟩
  have hS : 0 < Spec.through (Spec.sq J_out) q.2.2 := lt_of_le_of_ne (through_nonneg (sq_weights_nonneg J_out) _) (Ne.symm hne)
  have hn : 0 < ‖u‖ ^ 2 := by have := norm_pos_iff.mpr hu; positivity
  have hS' : Spec.through (Spec.sq J_out) (Spec.times u q.2.2) = ‖u‖ ^ 2 * Spec.through (Spec.sq J_out) q.2.2 := through_times _ _ _
  have hp' : 0 < Spec.through (Spec.sq J_out) (Spec.times u q.2.2) := by rw [hS']; positivity
  have hcan : ∀ x : ℝ, ‖u‖ ^ 2 * (x / (‖u‖ ^ 2 * Spec.through (Spec.sq J_out) q.2.2)) = x / Spec.through (Spec.sq J_out) q.2.2 := fun x => by field_simp
  have hp2 : 0 ≤ ‖u‖ ^ 2 * Spec.through (Spec.sq J_out) q.2.2 := by positivity
  simp only [overlapSq_through]
  refine ⟨_, _, _, _, _, _, divPort_ok J_top (Real.sqrt_pos.mpr hS).ne', divPort_ok J_bot (Real.sqrt_pos.mpr hS).ne', divPort_ok J_top (Real.sqrt_pos.mpr hp').ne',
    divPort_ok J_bot (Real.sqrt_pos.mpr hp').ne', divPorts_ok _ hS, divPorts_ok _ hp', ?_, ?_⟩
  · rw [(C105_values _ _ [] _ t.2.2).2.2.2.1, (C105_values _ _ [] _ (Spec.times u t.2.2)).2.2.2.1]
    simp only [sq_div _ _ hS.le, sq_div _ _ hp2, through_div, through_times, hS', hcan]
  · rw [(C105_values J_top J_top _ _ t.2.2).2.2.2.2, (C105_values J_top J_top _ _ (Spec.times u t.2.2)).2.2.2.2, List.length_map, List.length_map, List.map_map, List.map_map]
    refine congrArg Except.ok (congrArg (fun r : ℝ => (J_list.length : ℝ) ^ J_list.length * r) (congrArg List.prod (List.map_congr_left fun w _ => ?_)))
    simp only [Function.comp, sq_div _ _ hS.le, sq_div _ _ hp2, through_div, through_times, hS', hcan]

/-- **C105, the strength of the source (Kerr devices).** When both sources are multiplied by `u ≠ 0` and the Kerr coefficients divided by `|u|²`, the objectives of the 2-port, 3-port and T devices
keep their values: only the product of power and Kerr coefficient matters. -/
theorem C105_power_kerr (env : Env) (he : env.Exact) (u : ℂ) (hu : u ≠ 0) (s s' : Sim Nx Ny) (h : Spec.Amplified u s s') (hv : s.Valid) (hv' : s'.Valid) (hdet : s.A.det ≠ 0)
    (hborn : ∀ F, (bornMat s F).det ≠ 0) (hjac : s.pol = .Ez → ∀ F, Spec.JacRegular s F)
    (g g' : Sim Mx My) (hg : Spec.Amplified u g g') (hgv : g.Valid) (hgv' : g'.Valid) (hgdet : g.A.det ≠ 0) (J_out : Grid Mx My ℝ) (J J' : Grid Nx Ny ℝ)
    (solver : NlSolver) (thr : ℝ) (n : ℕ) (r : NlResult Nx Ny) (hr : (solve_fields_nl env s none solver thr n).1 = .ok r) :
    ∃ t t' q q' r', (s.solve_fields env).1 = .ok t ∧ (s'.solve_fields env).1 = .ok t' ∧ (g.solve_fields env).1 = .ok q ∧ (g'.solve_fields env).1 = .ok q' ∧
      (solve_fields_nl env s' none solver thr n).1 = .ok r' ∧
      (Spec.through J_out q.2.2 ≠ 0 → ∃ a b a' b', divPort J (overlap J_out q.2.2) = .ok a ∧ divPort J' (overlap J_out q.2.2) = .ok b ∧
        divPort J (overlap J_out q'.2.2) = .ok a' ∧ divPort J' (overlap J_out q'.2.2) = .ok b' ∧
        (twoPortJ a').call [t'.2.2, r'.Fz] = (twoPortJ a).call [t.2.2, r.Fz] ∧ (threePortJ a' b').call [t'.2.2, r'.Fz] = (threePortJ a b).call [t.2.2, r.Fz] ∧
        (tPortJ a' b').call [t'.2.2, r'.Fz] = (tPortJ a b).call [t.2.2, r.Fz]) := by
  have h1 := (C78_linear env he u s s' h hv hv' hdet false).1
  have h2 := (C78_linear env he u g g' hg hgv hgv' hgdet false).1
  have h3 := (C78_nonlinear env he u hu s s' h hv hv' hdet hborn hjac none solver thr n).1
  obtain ⟨t, ht⟩ : ∃ t, (s.solve_fields env false false).1 = .ok t := ⟨_, rfl⟩
  obtain ⟨q, hq⟩ : ∃ q, (g.solve_fields env false false).1 = .ok q := ⟨_, rfl⟩
  rw [ht] at h1
  rw [hq] at h2
  rw [hr] at h3
  refine ⟨t, _, q, _, _, ht, h1, hq, h2, h3, fun hne => ?_⟩
  have hn : ‖u‖ ^ 2 ≠ 0 := by have := norm_pos_iff.mpr hu; positivity
  have hS' : Spec.through J_out (Spec.times u q.2.2) = ‖u‖ ^ 2 * Spec.through J_out q.2.2 := through_times _ _ _
  have hp' : Spec.through J_out (Spec.times u q.2.2) ≠ 0 := by rw [hS']; exact mul_ne_zero hn hne
  have hcan : ∀ x : ℝ, ‖u‖ ^ 2 * (x / (‖u‖ ^ 2 * Spec.through J_out q.2.2)) = x / Spec.through J_out q.2.2 := fun x => by field_simp
  simp only [overlap_through]
  refine ⟨_, _, _, _, divPort_ok J hne, divPort_ok J' hne, divPort_ok J hp', divPort_ok J' hp', ?_⟩
  obtain ⟨a1, a2, a3, -⟩ := C105_values (fun i j => J i j / Spec.through J_out q.2.2) (fun i j => J' i j / Spec.through J_out q.2.2) [] t.2.2 r.Fz
  obtain ⟨b1, b2, b3, -⟩ := C105_values (fun i j => J i j / Spec.through J_out (Spec.times u q.2.2)) (fun i j => J' i j / Spec.through J_out (Spec.times u q.2.2)) [] (Spec.times u t.2.2) (Spec.times u r.Fz)
  rw [a1, a2, a3, b1, b2, b3]
  simp only [through_div, through_times, hS', hcan, and_self]

/-! ## Bounds -/

/-- **C105, switches.** If no more than all light leaves through the two ports, the objectives of the 3-port and T devices lie between −1 and 1, and the value 1 means that all light leaves through the
first port in the linear device and all through the second in the nonlinear one.  Likewise for the 2-port device. -/
theorem C105_switch (J J' : Grid Nx Ny ℝ) (hJ : ∀ i j, 0 ≤ J i j) (hJ' : ∀ i j, 0 ≤ J' i j) (e f : Grid Nx Ny ℂ) (he : Spec.through J e + Spec.through J' e ≤ 1)
    (hf : Spec.through J f + Spec.through J' f ≤ 1) :
    ∃ v w, (threePortJ J J').call [e, f] = .ok v ∧ (tPortJ J J').call [e, f] = .ok v ∧ (twoPortJ J).call [e, f] = .ok w ∧ |v| ≤ 1 ∧ |w| ≤ 1 ∧
      (v = 1 ↔ Spec.through J e = 1 ∧ Spec.through J' f = 1) ∧ (w = 1 ↔ Spec.through J e = 1 ∧ Spec.through J f = 0) := by
  obtain ⟨h1, h2, h3, -⟩ := C105_values J J' [] e f
  have a := through_nonneg hJ e
  have b := through_nonneg hJ' e
  have c := through_nonneg hJ f
  have d := through_nonneg hJ' f
  refine ⟨_, _, h2, h3, h1, abs_le.mpr ⟨by linarith, by linarith⟩, abs_le.mpr ⟨by linarith, by linarith⟩, ⟨fun h => ⟨by linarith, by linarith⟩, fun ⟨h, h'⟩ => by linarith⟩,
    ⟨fun h => ⟨by linarith, by linarith⟩, fun ⟨h, h'⟩ => by linarith⟩⟩

/-- **C105, splitters.** The objective of `Splitter.ipynb` is at most the square of the total transmission, with equality exactly for an even split; so it is at most 1 when no more than all light
is transmitted, and 1 only if each port gets one half. -/
theorem C105_splitter (J J' : Grid Nx Ny ℝ) (e : Grid Nx Ny ℂ) :
    ∃ v, (splitterJ J J').call [e] = .ok v ∧ 0 ≤ v ∧ v ≤ (Spec.through (Spec.sq J) e + Spec.through (Spec.sq J') e) ^ 2 ∧
      (v = (Spec.through (Spec.sq J) e + Spec.through (Spec.sq J') e) ^ 2 ↔ Spec.through (Spec.sq J) e = Spec.through (Spec.sq J') e) ∧
      (Spec.through (Spec.sq J) e + Spec.through (Spec.sq J') e ≤ 1 → v ≤ 1 ∧ (v = 1 ↔ Spec.through (Spec.sq J) e = 1 / 2 ∧ Spec.through (Spec.sq J') e = 1 / 2)) := by
  refine ⟨_, (C105_values J J' [] e e).2.2.2.1, ?_⟩
  have a := through_nonneg (sq_weights_nonneg J) e
  have b := through_nonneg (sq_weights_nonneg J') e
  generalize Spec.through (Spec.sq J) e = x at *
  generalize Spec.through (Spec.sq J') e = y at *
  have key : (x + y) ^ 2 = 2 ^ 2 * (x * y) + (x - y) ^ 2 := by ring
  have hd := sq_nonneg (x - y)
  refine ⟨by positivity, by linarith, ⟨fun h => ?_, fun h => ?_⟩, fun hs => ⟨?_, fun h => ?_, fun ⟨h, h'⟩ => ?_⟩⟩
  · have : (x - y) ^ 2 = 0 := by linarith
    exact sub_eq_zero.mp (pow_eq_zero_iff two_ne_zero |>.mp this)
  · rw [h]; ring
  · have : (x + y) ^ 2 ≤ 1 := pow_le_one₀ (by linarith) hs
    linarith
  · have h1 : (x + y) ^ 2 ≤ 1 := pow_le_one₀ (by linarith) hs
    have : (x - y) ^ 2 = 0 := by linarith
    have hxy := sub_eq_zero.mp (pow_eq_zero_iff two_ne_zero |>.mp this)
    have h2 : 1 ≤ (x + y) ^ 2 := by linarith
    have h3 : 1 ≤ x + y := by
      by_contra hc
      have : (x + y) ^ 2 < 1 := pow_lt_one₀ (by linarith) (not_le.mp hc) two_ne_zero
      linarith
    constructor <;> linarith
  · rw [h, h']; norm_num

theorem prod_le_pow (n : ℕ) (hn : 0 < n) (T : Fin n → ℝ) (hT : ∀ k, 0 ≤ T k) : (∏ k, (n : ℝ) * T k) ≤ (∑ k, T k) ^ n ∧ ((∏ k, (n : ℝ) * T k) = (∑ k, T k) ^ n ↔ ∀ k l, T k = T l) := by
  have hnr : (0 : ℝ) < n := by exact_mod_cast hn
  have hw : ∑ _k : Fin n, (1 / n : ℝ) = 1 := by rw [Finset.sum_const, Finset.card_univ, Fintype.card_fin, nsmul_eq_mul]; field_simp
  have hpos : ∀ k, 0 ≤ (n : ℝ) * T k := fun k => mul_nonneg hnr.le (hT k)
  have harith : ∑ k : Fin n, (1 / n : ℝ) * ((n : ℝ) * T k) = ∑ k, T k := Finset.sum_congr rfl fun k _ => by field_simp
  have hgeo : (∏ k : Fin n, ((n : ℝ) * T k) ^ (1 / n : ℝ)) ^ n = ∏ k, (n : ℝ) * T k := by
    rw [← Finset.prod_pow]
    refine Finset.prod_congr rfl fun k _ => ?_
    rw [one_div, Real.rpow_inv_natCast_pow (hpos k) hn.ne']
  have h0 : 0 ≤ ∏ k : Fin n, ((n : ℝ) * T k) ^ (1 / n : ℝ) := Finset.prod_nonneg fun k _ => Real.rpow_nonneg (hpos k) _
  have hs : 0 ≤ ∑ k, T k := Finset.sum_nonneg fun k _ => hT k
  have hle := Real.geom_mean_le_arith_mean_weighted Finset.univ (fun _ : Fin n => (1 / n : ℝ)) (fun k => (n : ℝ) * T k) (fun _ _ => by positivity) hw fun k _ => hpos k
  have hiff := Real.geom_mean_eq_arith_mean_weighted_iff_of_pos Finset.univ (fun _ : Fin n => (1 / n : ℝ)) (fun k => (n : ℝ) * T k) (fun _ _ => by positivity) hw fun k _ => hpos k
  rw [harith] at hle hiff
  refine ⟨hgeo ▸ pow_le_pow_left₀ h0 hle n, ?_⟩
  rw [← hgeo, pow_left_inj₀ h0 hs hn.ne', hiff]
  exact ⟨fun h k l => mul_left_cancel₀ hnr.ne' (h k (Finset.mem_univ _) l (Finset.mem_univ _)), fun h k _ l _ => by rw [h k l]⟩

/-- **C105, splitters with `N` ports.** The objective of `Splitter_4.ipynb` is at most the `N`-th power of the total transmission, with equality exactly for an even split; so it is at most 1 when no
more than all light is transmitted, and 1 only if each port gets one `N`-th. -/
theorem C105_splitter_N (l : List (Grid Nx Ny ℝ)) (hl : l ≠ []) (e : Grid Nx Ny ℂ) :
    ∃ v T, T = (l.map fun w => Spec.through (Spec.sq w) e).sum ∧ (splitterNJ l).call [e] = .ok v ∧ 0 ≤ v ∧ v ≤ T ^ l.length ∧
      (v = T ^ l.length ↔ ∀ w ∈ l, ∀ w' ∈ l, Spec.through (Spec.sq w) e = Spec.through (Spec.sq w') e) ∧
      (T ≤ 1 → v ≤ 1 ∧ (v = 1 ↔ ∀ w ∈ l, Spec.through (Spec.sq w) e = 1 / l.length)) := by
  have hn : 0 < l.length := List.length_pos_iff.mpr hl
  have hnr : (0 : ℝ) < l.length := by exact_mod_cast hn
  set T : Fin l.length → ℝ := fun k => Spec.through (Spec.sq (l.get k)) e with hTd
  have hT : ∀ k, 0 ≤ T k := fun k => through_nonneg (sq_weights_nonneg _) e
  have hsum : (l.map fun w => Spec.through (Spec.sq w) e).sum = ∑ k, T k := by
    rw [← List.sum_ofFn]
    exact congrArg List.sum (List.ext_get (by simp) fun k h h' => by simp [hTd])
  have hv : (splitterNJ l).call [e] = .ok (∏ k, (l.length : ℝ) * T k) := by
    have := splitterN_eval l fun _ => e
    refine congrArg Except.ok ((?_ : (splitterNJ l).eval _ = (splitterNJ l).eval fun _ => e).trans (this.trans ?_))
    · refine congrArg _ (funext fun k => ?_)
      have : k = (⟨0, one_pos⟩ : Fin 1) := Subsingleton.elim (α := Fin 1) _ _
      rw [this]
      rfl
    · simp only [overlapSq_through, hTd]
  obtain ⟨h1, h2⟩ := prod_le_pow l.length hn T hT
  have hmem : (∀ k m, T k = T m) ↔ ∀ w ∈ l, ∀ w' ∈ l, Spec.through (Spec.sq w) e = Spec.through (Spec.sq w') e := by
    constructor
    · intro h w hw w' hw'
      obtain ⟨k, rfl⟩ := List.get_of_mem hw
      obtain ⟨m, rfl⟩ := List.get_of_mem hw'
      exact h k m
    · exact fun h k m => h _ (List.get_mem _ _) _ (List.get_mem _ _)
  have hs : 0 ≤ ∑ k, T k := Finset.sum_nonneg fun k _ => hT k
  refine ⟨_, _, hsum.symm, hv, Finset.prod_nonneg fun k _ => mul_nonneg hnr.le (hT k), h1, h2.trans hmem, fun h => ⟨h1.trans (pow_le_one₀ hs h), fun hc => ?_, fun hc => ?_⟩⟩
  · have h3 : (∑ k, T k) ^ l.length = 1 := le_antisymm (pow_le_one₀ hs h) (hc ▸ h1)
    have h4 : ∑ k, T k = 1 := (pow_eq_one_iff_of_nonneg hs hn.ne').mp h3
    have h5 := hmem.mp (h2.mp (hc.trans h3.symm))
    intro w hw
    obtain ⟨k, rfl⟩ := List.get_of_mem hw
    have h6 : ∑ m, T m = l.length * T k := by
      rw [Finset.sum_congr rfl fun m _ => h5 _ (List.get_mem l m) _ (List.get_mem l k), Finset.sum_const, Finset.card_univ, Fintype.card_fin, nsmul_eq_mul]
    rw [h4] at h6
    rw [eq_div_iff hnr.ne', mul_comm]
    exact h6.symm
  · refine Finset.prod_eq_one fun k _ => ?_
    rw [hTd]
    simp only
    rw [hc _ (List.get_mem l k)]
    field_simp

/-! ## Symmetric devices -/

theorem through_mirror (w : Grid Nx Ny ℝ) (e : Grid Nx Ny ℂ) (he : Spec.mirrorY e = e) : Spec.through (Spec.mirrorY w) e = Spec.through w e := by
  unfold Spec.through
  refine Finset.sum_congr rfl fun i _ => ?_
  rw [← Equiv.sum_comp (⟨Spec.opp, Spec.opp, opp_opp, opp_opp⟩ : Fin Ny ≃ Fin Ny)]
  refine Finset.sum_congr rfl fun j _ => ?_
  have h1 : e i (Spec.opp j) = e i j := congrFun (congrFun he i) j
  show w i (Spec.opp (Spec.opp j)) * ‖e i (Spec.opp j)‖ ^ 2 = _
  rw [opp_opp, h1]

/-- **C105, symmetric splitters.** An Ez device that is its own mirror image along `y`, without absorbing layers there, sends equal parts to a port and its mirror image; the objective of
`Splitter.ipynb` is then the square of the total transmission, its largest value for this transmission. -/
theorem C105_symmetric (env : Env) (he : env.Exact) (s : Sim Nx Ny) (h : Spec.MirroredY s s) (hv : s.Valid) (hp : s.pol = .Ez) (hy : 1 < Ny) (hP : s.NPML.2 = 0) (hdet : s.A.det ≠ 0)
    (J : Grid Nx Ny ℝ) :
    ∃ t, (s.solve_fields env).1 = .ok t ∧ Spec.through (Spec.mirrorY J) t.2.2 = Spec.through J t.2.2 ∧
      (splitterJ J (Spec.mirrorY J)).call [t.2.2] = .ok ((Spec.through (Spec.sq J) t.2.2 + Spec.through (Spec.sq (Spec.mirrorY J)) t.2.2) ^ 2) := by
  have h1 := (C74_linear_y_partial env he s s h hv hv hy hP hdet false (Or.inl hp)).1
  obtain ⟨t, ht⟩ : ∃ t, (s.solve_fields env false false).1 = .ok t := ⟨_, rfl⟩
  rw [ht] at h1
  have hm : Spec.mirrorY t.2.2 = t.2.2 := (congrArg (fun t : Triple Nx Ny => t.2.2) (Except.ok.inj h1)).symm
  refine ⟨t, ht, through_mirror J _ hm, ?_⟩
  obtain ⟨v, h2, -, -, h3, -⟩ := C105_splitter J (Spec.mirrorY J) t.2.2
  rw [h2, h3.mpr (through_mirror (Spec.sq J) _ hm).symm]

/-! ## Gradients -/

/-- **C105, gradients.** For the objectives of both splitter notebooks `compute_dJ` is the exact derivative of `compute_J` with respect to the density of each design pixel at which the filter is
symmetric. -/
theorem C105_gradient (env : Env) (he : env.Exact) (o : Opt Nx Ny) (J : ObjFn Nx Ny) (hJ : (∃ a b, J = splitterJ a b) ∨ ∃ l, J = splitterNJ l) (arg : ObjArg) (harg : ObjArg.init "Ez" false = .ok arg)
    (hob : Objective.init J [arg] = .ok o.objective) (hv : o.simulation.Valid) (hp : o.simulation.pol = .Ez) (hdet : o.simulation.A.det ≠ 0) (hst : o.fields_current = false) (rho : Grid Nx Ny ℝ)
    (hrho : o.simulation.rho = some (some rho)) (heps : o.simulation.eps_r = fun i j => ((rho2eps rho o.eps_m o.W o.eta o.beta i j : ℝ) : ℂ)) (hb : o.beta ≠ 0) (i0 : Fin Nx) (j0 : Fin Ny)
    (hW : Spec.FilterSym o.W o.design_region i0 j0) :
    ∃ g f, (Opt.compute_dJ env o).1 = .ok g ∧ (∀ t, (Opt.compute_J env o (some (Spec.simAt o (Spec.bump rho i0 j0 t)))).1 = .ok (f t)) ∧ HasDerivAt f (g i0 j0) 0 := by
  have hauto : ∀ x, Spec.Autograd J x := by
    rcases hJ with ⟨a, b, rfl⟩ | ⟨l, rfl⟩
    · exact C105_autograd.2.2.2.1 a b
    · exact C105_autograd.2.2.2.2 l
  exact C29_gradient_exact_partial env he o J [arg] rho ⟨hob, hv, hp, hdet, hst, hrho, heps, hb, fun x _ => hauto x⟩ (fun a ha => by rw [List.mem_singleton.mp ha]; exact harg) i0 j0 hW

/-! ## Non-trivial cases -/

/-- An even split: the largest value. -/
example : (splitterJ (Nx := 1) (Ny := 2) (fun _ j => if j = 0 then 1 else 0) (fun _ j => if j = 1 then 1 else 0)).call [fun _ _ => ((Real.sqrt (1 / 2) : ℝ) : ℂ)] = .ok 1 := by
  rw [(C105_values (Nx := 1) (Ny := 2) (fun _ j => if j = 0 then 1 else 0) (fun _ j => if j = 1 then 1 else 0) [] (fun _ _ => ((Real.sqrt (1 / 2) : ℝ) : ℂ)) (fun _ _ => 0)).2.2.2.1]
  simp [Spec.through, Spec.sq]
  norm_num

/-- An uneven split. -/
example : ∃ v, (splitterJ (Nx := 1) (Ny := 2) (fun _ j => if j = 0 then 1 else 0) (fun _ j => if j = 1 then 1 else 0)).call [fun _ j => (j.val + 1 : ℂ)] = .ok v ∧ v < (1 + 4) ^ 2 := by
  obtain ⟨v, h1, -, h2, h3, -⟩ := C105_splitter (Nx := 1) (Ny := 2) (fun _ j => if j = 0 then 1 else 0) (fun _ j => if j = 1 then 1 else 0) (fun _ j => (j.val + 1 : ℂ))
  have e : Spec.through (Spec.sq fun (_ : Fin 1) (j : Fin 2) => if j = 0 then 1 else 0) (fun _ j => (j.val + 1 : ℂ)) = 1 := by simp [Spec.through, Spec.sq]
  have e' : Spec.through (Spec.sq fun (_ : Fin 1) (j : Fin 2) => if j = 1 then 1 else 0) (fun _ j => (j.val + 1 : ℂ)) = 4 := by
    simp [Spec.through, Spec.sq]
    rw [show (1 + 1 : ℂ) = 2 by norm_num]
    norm_num
  rw [e, e'] at h2 h3
  exact ⟨v, h1, lt_of_le_of_ne h2 fun h => by have := h3.mp h; norm_num at this⟩

example : ∃ v, (splitterNJ (Nx := 1) (Ny := 3) [fun _ j => if j = 0 then 1 else 0, fun _ j => if j = 1 then 1 else 0, fun _ j => if j = 2 then 1 else 0]).call [fun _ _ => 1] = .ok v ∧ v = 3 ^ 3 := by
  obtain ⟨v, T, hT, h1, -, -, h2, -⟩ := C105_splitter_N (Nx := 1) (Ny := 3) [fun _ j => if j = 0 then 1 else 0, fun _ j => if j = 1 then 1 else 0, fun _ j => if j = 2 then 1 else 0] (by simp) fun _ _ => 1
  refine ⟨v, h1, (h2.mpr ?_).trans ?_⟩
  · simp [Spec.through, Spec.sq]
  · rw [hT]
    simp [Spec.through, Spec.sq]
    norm_num

/-- A perfect switch. -/
example : ∃ v w, (threePortJ (Nx := 1) (Ny := 2) (fun _ j => if j = 0 then 1 else 0) (fun _ j => if j = 1 then 1 else 0)).call [fun _ j => if j = 0 then 1 else 0, fun _ j => if j = 1 then 1 else 0] = .ok v ∧
    v = 1 ∧ (twoPortJ (Nx := 1) (Ny := 2) fun _ j => if j = 0 then 1 else 0).call [fun _ j => if j = 0 then 1 else 0, fun _ j => if j = 1 then 1 else 0] = .ok w ∧ w = 1 := by
  obtain ⟨v, w, h1, -, h2, -, -, h3, h4⟩ := C105_switch (Nx := 1) (Ny := 2) (fun _ j => if j = 0 then 1 else 0) (fun _ j => if j = 1 then 1 else 0) (fun _ j => by split_ifs <;> norm_num)
    (fun _ j => by split_ifs <;> norm_num) (fun _ j => if j = 0 then 1 else 0) (fun _ j => if j = 1 then 1 else 0) (by simp [Spec.through]) (by simp [Spec.through])
  exact ⟨v, w, h1, h3.mpr ⟨by simp [Spec.through], by simp [Spec.through]⟩, h2, h4.mpr ⟨by simp [Spec.through], by simp [Spec.through]⟩⟩

example : ∃ w : Grid 2 2 ℝ, divPort (fun i j : Fin 2 => (i.val + j.val : ℝ)) (overlap (fun i j : Fin 2 => (i.val + j.val : ℝ)) fun _ _ => 1) = .ok w ∧ Spec.through w (fun _ _ => 1) = 1 :=
  (C105_straight (fun i j : Fin 2 => (i.val + j.val : ℝ)) fun _ _ => 1).1 (by simp [Spec.through, Fin.sum_univ_two]; norm_num)

example (env : Env) (r : NlResult 3 3) (s' : Sim 3 3) (src : Grid 3 3 ℂ) (hr : solve_fields_nl env (fsim 0 (fun _ _ => 1) src) = (.ok r, s')) (J : Grid 3 3 ℝ) :
    ∃ t, ((fsim 0 (fun _ _ => 1) src).solve_fields env).1 = .ok t ∧ (twoPortJ J).call [t.2.2, r.Fz] = .ok 0 :=
  let ⟨t, h1, h2, _⟩ := C105_no_kerr env (fsim 0 (fun _ _ => 1) src) (fun n hn => by simp [fsim] at hn) none _ _ _ r s' hr J J
  ⟨t, h1, h2⟩

example (env : Env) (he : env.Exact) (src : Grid 5 4 ℂ) (src' : Grid 3 6 ℂ) : ∃ t t', ((fsim 0 (fun _ _ => 1) src).solve_fields env).1 = .ok t ∧ ((toAmp 7 (fsim 0 (fun _ _ => 1) src)).solve_fields env).1 = .ok t' :=
  let ⟨t, t', _, _, h1, h2, _⟩ := C105_power env he 7 (by norm_num) (fsim 0 (fun _ _ => 1) src) _ (toAmp_amplified 7 _) (fsim_valid _ _ _) (toAmp_valid _ _ (fsim_valid _ _ _))
    (fsim_det (by norm_num) (by norm_num) _ _ _ fun _ _ => by norm_num) (fsim 0 (fun _ _ => 1) src') _ (toAmp_amplified 7 _) (fsim_valid _ _ _) (toAmp_valid _ _ (fsim_valid _ _ _))
    (fsim_det (by norm_num) (by norm_num) _ _ _ fun _ _ => by norm_num) (fun _ _ => 1) (fun _ _ => 1) (fun i _ => i) [fun _ _ => 1, fun _ j => j]
  ⟨t, t', h1, h2⟩

/-- A nonlinear device driven three times as hard with a Kerr coefficient nine times smaller. -/
example (env : Env) (he : env.Exact) (src : Grid 6 5 ℂ) (src' : Grid 3 6 ℂ) (n : ℕ) (r : NlResult 6 5) (hr : (solve_fields_nl env (cksim 2 0.5 (fun _ _ => 2) src) none .newton 1e-18 n).1 = .ok r) :
    ∃ r', (solve_fields_nl env (toAmp 3 (cksim 2 0.5 (fun _ _ => 2) src)) none .newton 1e-18 n).1 = .ok r' := by
  obtain ⟨h1, h2, h3⟩ := cksim_regular (Nx := 6) (Ny := 5) (by norm_num) (by norm_num) 2 0.5 (by norm_num) (fun _ _ => 2) src fun i j => by norm_num
  obtain ⟨-, -, -, -, r', -, -, -, -, h, -⟩ := C105_power_kerr env he 3 (by norm_num) (cksim 2 0.5 (fun _ _ => 2) src) _ (toAmp_amplified 3 _) (cksim_valid _ _ _ _) (toAmp_valid _ _ (cksim_valid _ _ _ _)) h1 h2
    (fun _ => h3) (fsim 0 (fun _ _ => 1) src') _ (toAmp_amplified 3 _) (fsim_valid _ _ _) (toAmp_valid _ _ (fsim_valid _ _ _)) (fsim_det (by norm_num) (by norm_num) _ _ _ fun _ _ => by norm_num)
    (fun _ _ => 1) (fun _ _ => 1) (fun _ _ => 1) .newton 1e-18 n r hr
  exact ⟨r', h⟩

example (env : Env) (he : env.Exact) (J : Grid 4 6 ℝ) : ∃ t, ((fsim 0 (fun _ _ => 1) fun i (_ : Fin 6) => (i.val : ℂ)).solve_fields env : _ × Sim 4 6).1 = .ok t ∧ Spec.through (Spec.mirrorY J) t.2.2 = Spec.through J t.2.2 :=
  let ⟨t, h1, h2, _⟩ := C105_symmetric env he (fsim 0 (fun _ _ => 1) fun i (_ : Fin 6) => (i.val : ℂ)) ⟨rfl, rfl, rfl, rfl, rfl, rfl, rfl, rfl, funext fun c => by cases c <;> rfl, funext fun c => by cases c <;> rfl⟩
    (fsim_valid _ _ _) rfl (by norm_num) rfl (fsim_det (by norm_num) (by norm_num) _ _ _ fun _ _ => by norm_num) J
  ⟨t, h1, h2⟩

example (env : Env) (he : env.Exact) (src : Grid 9 9 ℂ) (a b : Grid 9 9 ℝ) (i0 j0 : Fin 9) :
    let o := gopt 1 src (Objective.mk' (splitterJ a b) [⟨.Ez, false, .linear_Ez⟩]) (fun _ _ => 1) 1
    ∃ g f, (Opt.compute_dJ env o).1 = .ok g ∧
      (∀ t, (Opt.compute_J env o (some (Spec.simAt o (Spec.bump (fun _ _ => 0) i0 j0 t)))).1 = .ok (f t)) ∧ HasDerivAt f (g i0 j0) 0 := by
  have hS := gopt_setup env (Nx := 9) (Ny := 9) (by norm_num) (by norm_num) 1 src (splitterJ a b) [⟨.Ez, false, .linear_Ez⟩] (fun _ _ => 1) 1 rfl (C105_autograd.2.2.2.1 a b)
  exact C105_gradient env he _ (splitterJ a b) (Or.inl ⟨a, b, rfl⟩) _ rfl hS.obj hS.valid hS.pol hS.det hS.stale _ hS.density hS.eps hS.beta i0 j0 (filterSym_one (fun _ _ => Or.inr rfl) rfl)

/-- **C105, the profile of a port.** With the profile of a port taken from the source of its mode, the normalisation fails exactly if the field of the straight waveguide vanishes at every cell of the
port's source.  Otherwise the normalised power through the port is never negative, vanishes exactly if the field vanishes at every cell of that source, and is 1 for the straight waveguide; the phases
of the source and of the field play no part. -/
theorem C105_port (src Ez : Grid Nx Ny ℂ) :
    (divPort (portProfile src) (overlap (portProfile src) Ez) = .error .nonFinite ↔ ∀ i j, src i j ≠ 0 → Ez i j = 0) ∧
    ∀ w, divPort (portProfile src) (overlap (portProfile src) Ez) = .ok w →
      (∀ e, 0 ≤ overlap w e) ∧ (∀ e, overlap w e = 0 ↔ ∀ i j, src i j ≠ 0 → e i j = 0) ∧ overlap w Ez = 1 ∧
      ∀ src' e e', (∀ i j, ‖src' i j‖ = ‖src i j‖) → (∀ i j, ‖e' i j‖ = ‖e i j‖) → overlap w e' = overlap w e ∧ portProfile src' = portProfile src := by
  have hnn : ∀ e : Grid Nx Ny ℂ, 0 ≤ overlap (portProfile src) e := fun e => Finset.sum_nonneg fun i _ => Finset.sum_nonneg fun j _ => mul_nonneg (sq_nonneg _) (norm_nonneg _)
  have hz : ∀ e : Grid Nx Ny ℂ, overlap (portProfile src) e = 0 ↔ ∀ i j, src i j ≠ 0 → e i j = 0 := by
    intro e
    unfold overlap portProfile
    rw [Finset.sum_eq_zero_iff_of_nonneg fun i _ => Finset.sum_nonneg fun j _ => mul_nonneg (sq_nonneg _) (norm_nonneg _)]
    refine ⟨fun h i j hs => ?_, fun h i _ => Finset.sum_eq_zero fun j _ => ?_⟩
    · have h1 := (Finset.sum_eq_zero_iff_of_nonneg fun j _ => mul_nonneg (sq_nonneg _) (norm_nonneg _)).1 (h i (Finset.mem_univ _)) j (Finset.mem_univ _)
      rcases mul_eq_zero.1 h1 with h2 | h2
      · exact norm_eq_zero.1 (pow_eq_zero_iff two_ne_zero |>.1 h2)
      · exact absurd (norm_eq_zero.1 h2) hs
    · by_cases hs : src i j = 0
      · rw [hs, norm_zero, mul_zero]
      · rw [h i j hs, norm_zero]
        ring
  by_cases hS : overlap (portProfile src) Ez = 0
  · have e1 : divPort (portProfile src) (overlap (portProfile src) Ez) = .error .nonFinite := if_pos hS
    exact ⟨⟨fun _ => (hz Ez).1 hS, fun _ => e1⟩, fun w hw => by rw [e1] at hw; cases hw⟩
  · have e1 := divPort_ok (portProfile src) hS
    refine ⟨⟨fun h => (by rw [e1] at h; cases h), fun h => absurd ((hz Ez).2 h) hS⟩, fun w hw => ?_⟩
    rw [e1] at hw
    obtain rfl := Except.ok.inj hw
    have hd : ∀ e, overlap (fun i j => portProfile src i j / overlap (portProfile src) Ez) e = overlap (portProfile src) e / overlap (portProfile src) Ez := by
      intro e
      rw [overlap_through, overlap_through (portProfile src) e, through_div]
    refine ⟨fun e => ?_, fun e => ?_, ?_, fun src' e e' h1 h2 => ⟨?_, funext fun i => funext fun j => h1 i j⟩⟩
    · rw [hd]
      exact div_nonneg (hnn e) (hnn Ez)
    · rw [hd, div_eq_zero_iff, or_iff_left hS]
      exact hz e
    · rw [hd, div_self hS]
    · unfold overlap
      simp only [h2]

/-- A port of two cells with a complex source, and a field that misses one of them. -/
example : ∃ w : Grid 1 3 ℝ, divPort (portProfile fun _ j => ![Complex.I, 2, 0] j) (overlap (portProfile (Nx := 1) (Ny := 3) fun _ j => ![Complex.I, 2, 0] j) fun _ _ => 1) = .ok w ∧ overlap w (fun _ j => ![Complex.I, 0, 5] j) = 1 / 3 := by
  have hS : overlap (portProfile (Nx := 1) (Ny := 3) fun _ j => ![Complex.I, 2, 0] j) (fun _ _ => 1) = 3 := by
    unfold overlap portProfile
    simp [Fin.sum_univ_three]
    norm_num
  refine ⟨_, divPort_ok _ (by rw [hS]; norm_num), ?_⟩
  rw [hS]
  unfold overlap portProfile
  simp [Fin.sum_univ_three]

end Angler
