import Verif.Props.Gauge
import Verif.Props.Mirror

/-! # C79: time reversal -/

namespace Angler

open Matrix

variable {Nx Ny : ℕ}

/-! ## Specification -/

/-- Complex conjugate of a field. -/
noncomputable def Spec.conj (f : Grid Nx Ny ℂ) : Grid Nx Ny ℂ := fun i j => (starRingEnd ℂ) (f i j)

/-- Minus the complex conjugate of a field. -/
noncomputable def Spec.negConj (f : Grid Nx Ny ℂ) : Grid Nx Ny ℂ := fun i j => -(starRingEnd ℂ) (f i j)

/-- Time reversal of a component: electric fields are conjugated, magnetic fields conjugated with a minus sign. -/
noncomputable def Spec.reverse (c : Comp) : Grid Nx Ny ℂ → Grid Nx Ny ℂ :=
  match c with
  | .Ex | .Ey | .Ez => Spec.conj
  | .Hx | .Hy | .Hz => Spec.negConj

/-- The components of the field in the plane, in the order a solve returns them. -/
def Spec.planeComps : Pol → Comp × Comp
  | .Ez => (.Hx, .Hy)
  | .Hz => (.Ex, .Ey)

/-- A field dictionary reversed. -/
noncomputable def Spec.reverseFields (f : Fields Nx Ny) : Fields Nx Ny := fun c => (f c).map (Spec.reverse c)

/-- Time reversal of a source: an electric current (Ez) is conjugated with a minus sign, a magnetic current (Hz) is conjugated. -/
noncomputable def Spec.reverseSrc : Pol → Grid Nx Ny ℂ → Grid Nx Ny ℂ
  | .Ez => Spec.negConj
  | .Hz => Spec.conj

/-- `s'` is the time reverse of `s`: absorption becomes gain and conversely, the source is reversed. -/
structure Spec.Reversed (s s' : Sim Nx Ny) : Prop where
  L0 : s'.L0 = s.L0
  dl : s'.dl = s.dl
  omega : s'.omega = s.omega
  NPML : s'.NPML = s.NPML
  pol : s'.pol = s.pol
  eps_r : s'.eps_r = Spec.conj s.eps_r
  src : s'.src = Spec.reverseSrc s.pol s.src
  nonlinearity : s'.nonlinearity = s.nonlinearity
  fields : s'.fields = Spec.reverseFields s.fields
  fields_nl : s'.fields_nl = Spec.reverseFields s.fields_nl

/-! ## The system -/

theorem isTwist_conj : IsTwist (starRingEnd ℂ) := Or.inr rfl

/-- The sign of the out-of-plane component. -/
def revSign : Pol → ℂ
  | .Ez => 1
  | .Hz => -1

theorem revSign_norm (p : Pol) : ‖revSign p‖ = 1 := by cases p <;> simp [revSign]

theorem revSign_ne (p : Pol) : revSign p ≠ 0 := by cases p <;> simp [revSign]

theorem twist_conj_one (f : Grid Nx Ny ℂ) : twist (starRingEnd ℂ) 1 f = Spec.conj f := by
  funext i j
  exact one_mul _

theorem twist_conj_neg (f : Grid Nx Ny ℂ) : twist (starRingEnd ℂ) (-1) f = Spec.negConj f := by
  funext i j
  exact neg_one_mul _

theorem Spec.Reversed.dev {s s' : Sim Nx Ny} (h : Spec.Reversed s s') : TwistDev (starRingEnd ℂ) (revSign s.pol) (-1) s s' where
  sign := by simp
  L0 := h.L0
  dl := h.dl
  omega := h.omega
  NPML := h.NPML
  pol := h.pol
  eps_r := by rw [h.eps_r, twist_conj_one]
  src := by
    rw [h.src]
    cases s.pol
    · simp only [revSign, one_mul, twist_conj_neg, Spec.reverseSrc]
    · simp only [revSign, neg_mul_neg, one_mul, twist_conj_one, Spec.reverseSrc]
  nonlinearity := by
    rw [h.nonlinearity]
    unfold twistNl
    simp only [revSign_norm, one_pow, div_one, List.map_id']

theorem map_kron {m n : ℕ} (θ : ℂ →+* ℂ) (A : Mat m ℂ) (B : Mat n ℂ) : (kron A B).map θ = kron (A.map θ) (B.map θ) := by
  ext i j
  simp only [kron, Matrix.map_apply, map_mul]

theorem map_diags {θ : ℂ →+* ℂ} (n : ℕ) (a b c : ℂ) (ha : θ a = a) (hb : θ b = b) (hc : θ c = c) (o : List ℤ) : (diags n [a, b, c] o).map θ = diags n [a, b, c] o := by
  have key : ∀ (l : List (ℂ × ℤ)) (d : ℤ), (∀ p ∈ l, θ p.1 = p.1) → θ (l.map fun p => if d = p.2 then p.1 else 0).sum = (l.map fun p => if d = p.2 then p.1 else 0).sum := by
    intro l d h
    induction l with
    | nil => simp
    | cons q l ih =>
      simp only [List.map_cons, List.sum_cons, map_add]
      rw [ih fun p hp => h p (List.mem_cons_of_mem _ hp)]
      congr 1
      split_ifs
      · exact h q List.mem_cons_self
      · exact map_zero θ
  ext r k
  refine key _ _ fun p hp => ?_
  have := List.of_mem_zip hp
  simp only [List.mem_cons, List.not_mem_nil, or_false] at this
  rcases this.1 with h | h | h <;> rw [h] <;> assumption

theorem map_createDws {θ : ℂ →+* ℂ} (hθ : IsTwist θ) (w : Axis) (d : Dir) (dx dy : ℝ) : (createDws w d dx dy Nx Ny).map θ = createDws w d dx dy Nx Ny := by
  have h1 : ∀ n : ℕ, (1 : Mat n ℂ).map θ = 1 := fun n => Matrix.map_one θ (map_zero θ) (map_one θ)
  have hs : ∀ (r : ℝ) (A : Mat (Nx * Ny) ℂ), A.map θ = A → ((1 / (r : ℂ)) • A).map θ = (1 / (r : ℂ)) • A := fun r A hA => by
    ext i j
    have := congrFun (congrFun hA i) j
    simp only [Matrix.map_apply, Matrix.smul_apply, smul_eq_mul, map_mul, map_div₀, map_one, hθ.real] at this ⊢
    rw [this]
  have hm : θ (-1) = -1 := by rw [map_neg, map_one]
  unfold createDws
  cases w <;> cases d <;> dsimp only <;> split_ifs <;> first
    | exact h1 _
    | (refine hs _ _ ?_; rw [map_kron, h1, map_diags] <;> first | exact map_one θ | exact hm)

/-- Without absorbing layers the difference operators are real. -/
theorem fixed_conj {s : Sim Nx Ny} (hv : s.Valid) (hP : s.NPML = (0, 0)) : s.derivs.Fixed (starRingEnd ℂ) := by
  have hm : ∀ A B : Mat (Nx * Ny) ℂ, (A * B).map (starRingEnd ℂ) = A.map (starRingEnd ℂ) * B.map (starRingEnd ℂ) := fun A B => Matrix.map_mul
  have h1 : ∀ (r : ℝ × ℝ) (d : Dir) (n : ℕ) (i : Fin n), create_sfactor r s.L0 d s.omega n 0 i = 1 := fun r d n i => if_pos Nat.zero_lt_one
  have hS : ∀ g : Grid Nx Ny ℂ, (∀ i j, g i j = 1) → (spdiag (flatten fun i j => 1 / g i j)).map (starRingEnd ℂ) = spdiag (flatten fun i j => 1 / g i j) := by
    intro g hg
    rw [map_spdiag]
    congr 1
    funext k
    show (starRingEnd ℂ) (1 / g _ _) = 1 / g _ _
    rw [hg, div_one, map_one]
  rw [hv.derivs_eq, hP]
  unfold mkDerivs S_create
  constructor <;> dsimp only <;> rw [hm, map_createDws isTwist_conj] <;> congr 1
  · exact hS (fun _ j => create_sfactor s.yrange s.L0 .b s.omega Ny 0 j) fun _ _ => h1 _ _ _ _
  · exact hS (fun i _ => create_sfactor s.xrange s.L0 .b s.omega Nx 0 i) fun _ _ => h1 _ _ _ _
  · exact hS (fun i _ => create_sfactor s.xrange s.L0 .f s.omega Nx 0 i) fun _ _ => h1 _ _ _ _
  · exact hS (fun _ j => create_sfactor s.yrange s.L0 .f s.omega Ny 0 j) fun _ _ => h1 _ _ _ _

/-- The returned triple reversed. -/
noncomputable def Spec.reverse3 (p : Pol) (t : Triple Nx Ny) : Triple Nx Ny :=
  (Spec.reverse (Spec.planeComps p).1 t.1, Spec.reverse (Spec.planeComps p).2 t.2.1, Spec.reverse p.comp t.2.2)

theorem twist3_conj (p : Pol) (t : Triple Nx Ny) : twist3 (starRingEnd ℂ) (revSign p) (-1) t = Spec.reverse3 p t := by
  unfold twist3
  cases p
  · simp only [revSign, one_mul, twist_conj_one, twist_conj_neg]
    rfl
  · simp only [revSign, neg_mul_neg, one_mul, twist_conj_one, twist_conj_neg]
    rfl

theorem twist_comp (p : Pol) (f : Grid Nx Ny ℂ) : twist (starRingEnd ℂ) (revSign p) f = Spec.reverse p.comp f := by
  cases p
  · exact twist_conj_one f
  · exact twist_conj_neg f

theorem Spec.Reversed.in_plane {s s' : Sim Nx Ny} (h : Spec.Reversed s s') (hv : s.Valid) (hv' : s'.Valid) (hP : s.NPML = (0, 0)) (avg : Bool) (eps : Grid Nx Ny ℂ) (X : Vec (Nx * Ny) ℂ) :
    s'.in_plane avg (Spec.conj eps) (twistVec (starRingEnd ℂ) (revSign s.pol) X) = Spec.reverse3 s.pol (s.in_plane avg eps X) := by
  rw [← twist3_conj, ← h.dev.in_plane isTwist_conj hv hv' (fixed_conj hv hP), twist_conj_one]

theorem store_reverse (p : Pol) (f : Fields Nx Ny) (t : Triple Nx Ny) : Sim.store p (Spec.reverseFields f) (Spec.reverse3 p t) = Spec.reverseFields (Sim.store p f t) := by
  funext c
  cases p <;> cases c <;> rfl

/-! ## Solves -/

/-- **C79, linear solves.** Without absorbing layers, the time-reversed device has the time-reversed fields: electric components conjugated, magnetic components conjugated with a minus sign,
in the returned triple and in the stored dictionary. -/
theorem C79_linear (env : Env) (he : env.Exact) (s s' : Sim Nx Ny) (h : Spec.Reversed s s') (hv : s.Valid) (hv' : s'.Valid) (hP : s.NPML = (0, 0)) (hdet : s.A.det ≠ 0) (avg : Bool) :
    (s'.solve_fields env false avg).1 = (s.solve_fields env false avg).1.map (Spec.reverse3 s.pol) ∧
      Spec.Reversed (s.solve_fields env false avg).2 (s'.solve_fields env false avg).2 := by
  have ht : s'.in_plane avg s'.eps_r (solver_direct env s'.A s'.rhs) = Spec.reverse3 s.pol (s.in_plane avg s.eps_r (solver_direct env s.A s.rhs)) := by
    have hT := h.dev.twisted isTwist_conj hv hv' (fixed_conj hv hP)
    rw [hT.A, hT.rhs, solver_twist he isTwist_conj _ hdet, h.eps_r, h.in_plane hv hv' hP]
  simp only [Sim.solve_fields, if_true, ht]
  refine ⟨rfl, { h with fields := ?_ }⟩
  rw [h.pol, h.fields, store_reverse]

/-- **C79, Kerr solves.** The same holds for Kerr devices, whose coefficients stay as they are, with every solver string, threshold, iteration limit and (reversed) starting field; the
convergence history is the same, or the same exception is raised. -/
theorem C79_nonlinear (env : Env) (he : env.Exact) (s s' : Sim Nx Ny) (h : Spec.Reversed s s') (hv : s.Valid) (hv' : s'.Valid) (hP : s.NPML = (0, 0))
    (hA : s.A.det ≠ 0) (hdet : ∀ F, (bornMat s F).det ≠ 0) (hjac : s.pol = .Ez → ∀ F, Spec.JacRegular s F) (E : Option (Grid Nx Ny ℂ)) (solver : NlSolver) (thr : ℝ) (n : ℕ) :
    (solve_fields_nl env s' (E.map (Spec.reverse s.pol.comp)) solver thr n).1 = (solve_fields_nl env s E solver thr n).1.map (fun r =>
        ⟨Spec.reverse (Spec.planeComps s.pol).1 r.Fx, Spec.reverse (Spec.planeComps s.pol).2 r.Fy, Spec.reverse s.pol.comp r.Fz, r.conv⟩) ∧
      (solve_fields_nl env s' (E.map (Spec.reverse s.pol.comp)) solver thr n).2.fields = Spec.reverseFields (solve_fields_nl env s E solver thr n).2.fields ∧
      (solve_fields_nl env s' (E.map (Spec.reverse s.pol.comp)) solver thr n).2.fields_nl = Spec.reverseFields (solve_fields_nl env s E solver thr n).2.fields_nl := by
  have hR : TwistedRun (starRingEnd ℂ) (revSign s.pol) (Spec.reverse3 s.pol) Spec.reverseFields s s' :=
    { data := h.dev.twisted isTwist_conj hv hv' (fixed_conj hv hP),
      plane := fun eps X => by rw [twist_conj_one, h.in_plane hv hv' hP],
      store := store_reverse s.pol,
      comp := fun f => by
        show (f s.pol.comp).map (Spec.reverse s.pol.comp) = _
        congr 1
        funext g
        exact (twist_comp s.pol g).symm,
      fields := h.fields, fields_nl := h.fields_nl, regular := hA, regular_nl := hdet, regular_jac := hjac }
  obtain ⟨h1, h2⟩ := (TwistedRun.covariant he isTwist_conj (revSign_ne s.pol) (Spec.reverse3 s.pol) Spec.reverseFields fun t => (twist_comp s.pol t.2.2).symm).solve_nl hR E solver thr n
  have e : twist (starRingEnd ℂ) (revSign s.pol) = Spec.reverse (Nx := Nx) (Ny := Ny) s.pol.comp := funext fun g => twist_comp s.pol g
  rw [e] at h1 h2
  exact ⟨h1, h2.fields, h2.fields_nl⟩

/-- **C79, measured power.** Every probe reads the opposite power: what flowed in flows out. -/
theorem C79_flux (s s' : Sim Nx Ny) (h : Spec.Reversed s s') (dir : String) (c : ℤ × ℤ) (w : ℝ) (nl : Bool) :
    s'.flux_probe dir c w nl = (s.flux_probe dir c w nl).map (-1 * ·) := by
  have hre : ∀ v w : ℂ, v * (starRingEnd ℂ) w = -1 → ∀ e h : ℂ, (v * (starRingEnd ℂ) e * (starRingEnd ℂ) (w * (starRingEnd ℂ) h)).re = -1 * (e * (starRingEnd ℂ) h).re := by
    intro v w hvw e h
    have : v * (starRingEnd ℂ) e * (starRingEnd ℂ) (w * (starRingEnd ℂ) h) = -(starRingEnd ℂ) (e * (starRingEnd ℂ) h) := by
      rw [map_mul, map_mul]
      linear_combination ((starRingEnd ℂ) e * (starRingEnd ℂ) ((starRingEnd ℂ) h)) * hvw
    rw [this, Complex.neg_re, Complex.conj_re, neg_one_mul]
  have hs : revSign s.pol * (starRingEnd ℂ) (-revSign s.pol) = -1 ∧ -revSign s.pol * (starRingEnd ℂ) (revSign s.pol) = -1 := by cases s.pol <;> simp [revSign]
  have hfield : ∀ c, (if nl then s'.fields_nl else s'.fields) c = ((if nl then s.fields_nl else s.fields) c).map (Spec.reverse c) := by
    intro c
    rw [h.fields, h.fields_nl]
    cases nl <;> rfl
  refine flux_scaled (θ := starRingEnd ℂ) h.dl h.pol (revSign s.pol) (-revSign s.pol) (-1) (hre _ _ hs.1) (hre _ _ hs.2) nl ?_ (fun c h1 h2 => ?_) dir c w
  · rw [hfield]
    congr 1
    funext g
    exact (twist_comp s.pol g).symm
  · rw [hfield]
    congr 1
    funext g
    cases hp : s.pol
    · rw [revSign, twist_conj_neg]
      rcases h1 hp with rfl | rfl <;> rfl
    · rw [revSign, neg_neg, twist_conj_one]
      rcases h2 hp with rfl | rfl <;> rfl

/-! ## Where it fails -/

/-- **C79, negation.** With absorbing layers the time-reversed source does not give the time-reversed field, although the permittivity of the device is real: the layers still absorb. -/
theorem C79_absorber_false (env : Env) (he : env.Exact) : ∃ s s' : Sim 4 2, s.Valid ∧ s'.Valid ∧ s.A.det ≠ 0 ∧ s'.A.det ≠ 0 ∧ s.pol = .Ez ∧ s.NPML = (1, 1) ∧ Spec.Reversed s s' ∧
    (s'.solve_fields env).1 ≠ (s.solve_fields env).1.map (Spec.reverse3 .Ez) := by
  have hE : ∀ (i : Fin 4) (j : Fin 2), (1 : ℝ) ≤ ‖(1 : ℂ)‖ := fun _ _ => by rw [norm_one]
  let f : Fin 4 → ℂ := fun i => if i = 1 then 1 else 0
  obtain ⟨src, hrhs, hsol⟩ := fsim_src (Nx := 4) (Ny := 2) (by norm_num) (by norm_num) 1 (fun _ _ => 1) (fun i _ => f i) hE env he
  have hdet := fsim_det (Nx := 4) (Ny := 2) (by norm_num) (by norm_num) 1 (fun _ _ => 1) (Spec.negConj src) hE
  refine ⟨fsim 1 (fun _ _ => 1) src, fsim 1 (fun _ _ => 1) (Spec.negConj src), fsim_valid _ _ _, fsim_valid _ _ _, fsim_det (by norm_num) (by norm_num) _ _ _ hE, hdet, rfl, rfl,
    ⟨rfl, rfl, rfl, rfl, rfl, ?_, rfl, rfl, ?_, ?_⟩, ?_⟩
  · funext i j
    exact (map_one (starRingEnd ℂ)).symm
  · funext c; cases c <;> rfl
  · funext c; cases c <;> rfl
  intro h
  have hspec := solver_direct_spec he (A := (fsim 1 (fun _ _ => 1) (Spec.negConj src) : Sim 4 2).A) (b := (fsim 1 (fun _ _ => 1) (Spec.negConj src) : Sim 4 2).rhs) (Or.inl hdet)
  simp only [Sim.solve_fields, if_true, hsol] at h
  have h2 := congrArg (fun t : Triple 4 2 => flatten t.2.2) (Except.ok.inj h)
  obtain ⟨X, hX⟩ : ∃ X : Grid 4 2 ℂ, solver_direct env (fsim 1 (fun _ _ => 1) (Spec.negConj src) : Sim 4 2).A (fsim 1 (fun _ _ => 1) (Spec.negConj src) : Sim 4 2).rhs = flatten X :=
    ⟨_, (flatten_unflatten _).symm⟩
  rw [hX] at h2 hspec
  simp only [Spec.reverse3] at h2
  rw [fsim_third, fsim_third] at h2
  have hg : (Spec.reverse Pol.Ez.comp (fun i _ => f i) : Grid 4 2 ℂ) = fun i _ => f i := by
    funext i j
    show (starRingEnd ℂ) (f i) = f i
    fin_cases i <;> simp [f]
  rw [h2, hg, fsim_column] at hspec
  have hf := hrhs src
  rw [fsim_column] at hf
  have h3 := congrFun hspec (finProdFinEquiv ((0 : Fin 4), (0 : Fin 2)))
  have h1 := congrFun hf (finProdFinEquiv ((0 : Fin 4), (0 : Fin 2)))
  have hr : (fsim 1 (fun _ _ => 1) (Spec.negConj src) : Sim 4 2).rhs (finProdFinEquiv ((0 : Fin 4), (0 : Fin 2))) =
      (starRingEnd ℂ) ((fsim 1 (fun _ _ => 1) src : Sim 4 2).rhs (finProdFinEquiv ((0 : Fin 4), (0 : Fin 2)))) := by
    simp only [Sim.rhs, flatten_pair]
    show -(starRingEnd ℂ) (src 0 0) * Complex.I * ((1 : ℝ) : ℂ) = (starRingEnd ℂ) (src 0 0 * Complex.I * ((1 : ℝ) : ℂ))
    rw [map_mul, map_mul, Complex.conj_I, Complex.conj_ofReal]
    ring
  rw [hr, ← h1] at h3
  simp only [flatten_pair] at h3
  have n0 : Spec.next (0 : Fin 4) = 1 := rfl
  have p0 : Spec.prev (0 : Fin 4) = 3 := rfl
  have f0 : f 0 = 0 := rfl
  have f1 : f 1 = 1 := rfl
  have f3 : f 3 = 0 := rfl
  rw [n0, p0, fsim_layer .b 1 1 1 rfl (by decide) (by norm_num), fsim_layer .f 0 (3 / 2) 1 rfl (by decide) (by norm_num), f0, f1, f3] at h3
  have key : ∀ a b c : ℂ, ((1 - 0) / a - (0 - 0) / b) / c / 9 + 0 = (starRingEnd ℂ) (((1 - 0) / a - (0 - 0) / b) / c / 9 + 0) → (a * c).im = 0 := by
    intro a b c h
    have e : ((1 - 0) / a - (0 - 0) / b) / c / 9 + 0 = ((a * c) * 9)⁻¹ := by
      rw [sub_self, zero_div, sub_zero, sub_zero, add_zero, div_div, div_div, one_div, mul_assoc]
    rw [e, map_inv₀] at h
    have h5 := congrArg Complex.im (inv_injective h)
    rw [Complex.conj_im, Complex.mul_im] at h5
    simp at h5
    rw [Complex.mul_im]
    linarith
  have h4 := key _ _ _ h3
  norm_num [Complex.mul_im] at h4

/-! ## The hypotheses are met -/

/-- Any simulation, reversed. -/
noncomputable def toReverse (s : Sim Nx Ny) : Sim Nx Ny :=
  let r := construct_A s.omega s.xrange s.yrange (Spec.conj s.eps_r) s.NPML s.pol s.L0
  { s with
    src := Spec.reverseSrc s.pol s.src, eps_r := Spec.conj s.eps_r, A := r.1, derivs := r.2, fields := Spec.reverseFields s.fields, fields_nl := Spec.reverseFields s.fields_nl }

theorem toReverse_reversed (s : Sim Nx Ny) : Spec.Reversed s (toReverse s) := ⟨rfl, rfl, rfl, rfl, rfl, rfl, rfl, rfl, rfl, rfl⟩

theorem toReverse_valid (s : Sim Nx Ny) (hv : s.Valid) : (toReverse s).Valid := ⟨hv.L0_pos, hv.omega_pos, hv.xr, hv.yr, rfl, construct_A_derivs _ _ _ _ _ _ _ _⟩

/-- A lossy Kerr device becomes one with gain; its fields are the conjugate ones, whatever the source and the solver. -/
example (env : Env) (he : env.Exact) (src : Grid 6 5 ℂ) (E : Option (Grid 6 5 ℂ)) (solver : NlSolver) (thr : ℝ) (n : ℕ) : let s : Sim 6 5 := cksim 0 0.5 (fun _ _ => 2 - Complex.I) src
    (solve_fields_nl env (toReverse s) (E.map Spec.conj) solver thr n).1 =
      (solve_fields_nl env s E solver thr n).1.map fun r => ⟨Spec.negConj r.Fx, Spec.negConj r.Fy, Spec.conj r.Fz, r.conv⟩ := by
  intro s
  obtain ⟨h1, h2, h3⟩ := cksim_regular (Nx := 6) (Ny := 5) (by norm_num) (by norm_num) 0 0.5 (by norm_num) (fun _ _ => 2 - Complex.I) src fun i j => by norm_num
  exact (C79_nonlinear env he s _ (toReverse_reversed s) (cksim_valid _ _ _ _) (toReverse_valid s (cksim_valid _ _ _ _)) rfl h1 h2 (fun _ => h3) E solver thr n).1

end Angler
