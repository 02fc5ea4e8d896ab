import Verif.Lemmas.KerrProblem

/-! # Gradients on weakly nonlinear devices -/

namespace Angler

open Matrix Filter Topology

variable {Nx Ny : ℕ}

theorem bump_nearBox {a : ℝ} (ha : 0 < a) {x : Grid Nx Ny ℝ} (hx : Spec.Box x) (i0 : Fin Nx) (j0 : Fin Ny) : ∀ᶠ t in 𝓝 (0 : ℝ), Spec.NearBox a (Spec.bump x i0 j0 t) := by
  have h1 : ∀ᶠ t in 𝓝 (0 : ℝ), |t| < a := by
    have := Metric.ball_mem_nhds (0 : ℝ) ha
    filter_upwards [this] with t ht
    rwa [Metric.mem_ball, dist_zero_right, Real.norm_eq_abs] at ht
  filter_upwards [h1] with t ht i j
  have h2 := abs_lt.1 ht
  unfold Spec.bump
  split_ifs
  · exact ⟨by linarith [(hx i j).1, h2.1], by linarith [(hx i j).2, h2.2]⟩
  · exact ⟨by linarith [(hx i j).1], by linarith [(hx i j).2]⟩

namespace Spec.KerrProblem
variable {o : Opt Nx Ny} {J : ObjFn Nx Ny} {args : List ObjArg} {m κ κ1 R ω P P1 a : ℝ}

/-- The computed gradient is close to the derivatives of the exact objective. -/
theorem gradient (h : Spec.KerrProblem o J args m κ κ1 R ω P P1 a) {env : Env} (he : env.Exact) (hb : env.backend = .pardiso) (hx : 1 < Nx) (hy : 1 < Ny) {F : Grid Nx Ny ℝ → ℝ}
    (hF : Spec.IsKerrObjective o J a F) {x : Grid Nx Ny ℝ} (hbx : Spec.Box x) {o' : Opt Nx Ny} (hs : KerrAt o x o') :
    ∃ g, (Opt.compute_dJ env o').1 = .ok g ∧ ∀ i j, o.design_region i j = 1 →
      ∃ d, HasDerivAt (fun t => F (Spec.bump x i j t)) d 0 ∧ |g i j - d| ≤ Spec.gradTol o m κ1 R ω P P1 := by
  have hnb := box_near h.room hbx
  obtain ⟨Z, hZ, hZR, -⟩ := h.exists_solution hx hy hnb
  have hf := hs.simFor
  obtain ⟨E, G, fl, fn, s', hs', hsol, hfn, -, hE, hG, hd, hd2⟩ := h.solveArgFields he hb hx hy hnb hs.at'.same.objective hs.at'.stale hf hZ
  set o1 : Opt Nx Ny := { o' with simulation := s', field_arg_list := some (args.map fun _ => E), fields_current := true } with ho1
  have hlen := h.len
  have hv1 : s'.Valid := by
    rw [hs']
    exact ⟨hf.valid.L0_pos, hf.valid.omega_pos, hf.valid.xr, hf.valid.yr, hf.valid.A_eq, hf.valid.derivs_eq⟩
  have hf1 : SimFor o x s' := by
    rw [hs'] at hv1 ⊢
    exact ⟨hv1, hf.eps, hf.A, hf.derivs, hf.omega, hf.L0, hf.pol, hf.src, hf.dl, hf.nonlin⟩
  have hfs : s'.fields_nl .Ez = some E := by rw [hs']; exact hfn
  have hobj : Objective.init J args = .ok o1.objective := by
    show _ = Except.ok o'.objective
    rw [hs.at'.same.objective]
    exact h.obj
  have hapx : Spec.KerrApprox env o1 J args x E G :=
    { obj := hobj
      kinds := fun b hb => Or.inr (h.kinds b hb)
      nonempty := h.nonempty
      pol := hf1.pol.trans h.pol
      density := by
        show s'.rho = _
        rw [hs']
        exact hs.at'.rho
      current := rfl
      linear := fun c _ ⟨b, hb, h1⟩ => by rw [(h.arg_nl hb).1] at h1; cases h1
      nonlinear := hfs
      anl := by
        show s'.Anl = (s'.compute_nl G).Anl
        rw [hs']
        rfl
      dnl := by
        show s'.dnl_de = (s'.compute_nl G).dnl_de
        rw [hs']
        rfl
      collected := ⟨_, h.collect hfs, rfl⟩ }
  obtain ⟨hlen', ch, hch, hg⟩ := approx_compute_dJ env o1 J args x E G hapx
  -- the gradient is the one for the state with the computed fields
  have hsame : (Opt.compute_dJ env o').1 = (Opt.compute_dJ env o1).1 := by
    have hsol1 : Opt.solveArgFields env o1 none = (.ok (), o1, none) := by
      unfold Opt.solveArgFields
      rw [if_neg]
      rintro (h1 | h1)
      · cases h1
      · obtain ⟨b, l, hbl⟩ := List.exists_cons_of_ne_nil h.nonempty
        simp [ho1, hbl] at h1
    unfold Opt.compute_dJ
    rw [hsol, hsol1]
  rw [hsame]
  refine ⟨_, hg, fun i0 j0 hdes => ?_⟩
  -- the exact state
  let o0 : Opt Nx Ny := { o' with simulation := { o'.simulation.compute_nl Z with fields_nl := fun c => if c = .Ez then some Z else none }, field_arg_list := some (args.map fun _ => Z), fields_current := true }
  have hxZ : ∀ y : Fin J.arity → Grid Nx Ny ℂ, (∀ (k : Fin J.arity) b, args[(k : ℕ)]? = some b → (if b.nl then o0.simulation.fields_nl b.component else o0.simulation.fields b.component) = some (y k)) →
      y = fun _ => Z := by
    intro y hy0
    funext k
    have hlt : (k : ℕ) < args.length := by rw [hlen]; exact k.2
    have h1 := hy0 k args[(k : ℕ)] (List.getElem?_eq_getElem hlt)
    obtain ⟨h2, h3⟩ := h.arg_nl (List.getElem_mem hlt)
    rw [h2, h3] at h1
    exact (Option.some.inj h1).symm
  have hv0 : o0.simulation.Valid := ⟨hf.valid.L0_pos, hf.valid.omega_pos, hf.valid.xr, hf.valid.yr, hf.valid.A_eq, hf.valid.derivs_eq⟩
  have hf0 : SimFor o x o0.simulation := ⟨hv0, hf.eps, hf.A, hf.derivs, hf.omega, hf.L0, hf.pol, hf.src, hf.dl, hf.nonlin⟩
  have hpol0 : o0.simulation.pol = .Ez := hf.pol.trans h.pol
  have hw0 := hf0.weak (h.weak x hnb)
  have hS0 : Spec.KerrEz env o0 J args x Z :=
    { obj := hobj
      kinds := fun b hb => Or.inr (h.kinds b hb)
      nonempty := h.nonempty
      valid := hv0
      pol := hpol0
      density := hs.at'.rho
      eps := hs.at'.eps
      beta := by
        show o'.beta ≠ 0
        rw [hs.at'.same.beta]
        exact h.beta
      current := rfl
      linear := fun c _ ⟨b, hb, h1⟩ => by rw [(h.arg_nl hb).1] at h1; cases h1
      nonlinear := rfl
      anl := rfl
      dnl := rfl
      collected := ⟨_, h.collect rfl, rfl⟩
      det := fun ⟨b, hb, h1⟩ => by rw [(h.arg_nl hb).1] at h1; cases h1
      exact := (hf0.maxwell Z).2 hZ
      regular := hw0.regular hv0 hpol0 hx hy Z hZR
      autograd := fun y hy0 => by rw [hxZ y hy0]; exact h.autograd _ fun _ => hZR }
  obtain ⟨hlen0, hg0⟩ := kerr_compute_dJ env o0 J args x Z hS0
  have hsym : Spec.FilterSym o0.W o0.design_region i0 j0 := by
    show Spec.FilterSym o'.W o'.design_region i0 j0
    rw [hs.at'.same.W, hs.at'.same.design]
    exact h.filter i0 j0 hdes
  obtain ⟨g0, hg0', ⟨Eb, hEb⟩, hder⟩ := C31_gradient_exact_partial env he o0 J args x Z hS0 i0 j0 hsym
  obtain rfl : _ = g0 := Except.ok.inj (hg0.symm.trans hg0')
  have hderiv := hder Eb hEb (fun t _ => Eb t) fun t k b hk => by
    rw [(h.arg_nl (List.mem_of_getElem? hk)).1]
    rfl
  refine ⟨_, hderiv.congr_of_eventuallyEq ?_, ?_⟩
  · filter_upwards [hEb.2.2, bump_nearBox h.room hbx i0 j0] with t ht hnt
    refine hF _ hnt (Eb t) ?_
    have hst : KerrAt o (Spec.bump x i0 j0 t) { Opt.putRho o' (Spec.bump x i0 j0 t) with fields_current := false } :=
      ⟨⟨hs.at'.same.trans (SameProblem.putRho o' _), valid_putRho hs.at'.valid _, rfl, rfl, rfl⟩, hs.dl, hs.nonlin⟩
    exact (hst.simFor.maxwell (Eb t)).1 ht
  · -- the error
    have hdiff0 : Spec.OnlyFieldsDiffer o1 o0 := by
      refine ⟨rfl, rfl, rfl, rfl, rfl, o'.simulation.fields, fun c => if c = .Ez then some Z else none, (o'.simulation.compute_nl Z).eps_nl, (o'.simulation.compute_nl Z).dnl_de,
        (o'.simulation.compute_nl Z).dnl_deps, (o'.simulation.compute_nl Z).Anl, ?_⟩
      simp only [ho1]
      rw [hs']
      rfl
    have hargE : ∀ (s : Sim Nx Ny) (e : Grid Nx Ny ℂ), (fun q : Fin J.arity => argField env s e (args.get (q.cast hlen.symm))) = fun _ => e := by
      intro s e
      funext q
      unfold argField
      rw [(h.arg_nl (List.get_mem args (q.cast hlen.symm))).1]
      rfl
    have e0 : ∀ k, argGrad env o0 x Z (J.partials k fun q => argField env o0.simulation Z (args.get (q.cast hlen.symm))) (args.get (k.cast hlen.symm)) i0 j0 =
        argGrad2 env o1 x Z Z (J.partials k fun _ => Z) (args.get (k.cast hlen.symm)) i0 j0 := by
      intro k
      rw [← OnlyFieldsDiffer.argGrad2_eq hdiff0, hargE]
      rfl
    have e1 : ∀ k, argGrad2 env o1 x (ch k) E (J.partials k fun q => argField env o1.simulation E (args.get (q.cast hlen.symm))) (args.get (k.cast hlen.symm)) i0 j0 =
        argGrad2 env o1 x (ch k) E (J.partials k fun _ => E) (args.get (k.cast hlen.symm)) i0 j0 := by
      intro k
      rw [hargE]
    simp only [e0, e1]
    rw [← Finset.sum_sub_distrib]
    have hw1 := hf1.weak (h.weak x hnb)
    have hR := hw1.R_nonneg hv1 hx hy
    have hδ : 0 ≤ Spec.fieldTol Nx Ny R := by unfold Spec.fieldTol; positivity
    have hω : 0 ≤ ω := (abs_nonneg _).trans (h.chain x hbx i0 j0 i0 j0)
    have hκ1 : 0 ≤ κ1 := (norm_nonneg _).trans (kerrSlope_le h.slope i0 j0)
    have hone : ∀ k, |argGrad2 env o1 x (ch k) E (J.partials k fun _ => E) (args.get (k.cast hlen.symm)) i0 j0 -
        argGrad2 env o1 x Z Z (J.partials k fun _ => Z) (args.get (k.cast hlen.symm)) i0 j0| ≤
        o.simulation.omega ^ 2 * EPSILON_0 * o.simulation.L0 * ω / Spec.margin o.simulation m *
          (3 * ((1 + κ1 * R ^ 2) * R) * (∑ i, ∑ j, ‖J.partials k (fun _ => E) i j - J.partials k (fun _ => Z) i j‖) +
            (9 + 13 * κ1 * R ^ 2) * Spec.fieldTol Nx Ny R * ∑ i, ∑ j, ‖J.partials k (fun _ => Z) i j‖) := by
      intro k
      have hck : ‖ch k‖ ≤ 1001 / 1000 * R ∧ ‖ch k - Z‖ ≤ Spec.fieldTol Nx Ny R := by
        rcases hch k with h1 | h1
        · rw [h1]; exact ⟨by linarith, hd⟩
        · rw [h1]; exact ⟨hG, hd2⟩
      have hc := Spec.WeakKerr.contribution_error (o := o1) hw1 he hv1 (hf1.pol.trans h.pol) hx hy (by rw [hf1.rate]; exact h.rate) hf1.real (κ1 := κ1) (ω := ω) (δ := Spec.fieldTol Nx Ny R)
        (fun i j => by
          show ‖kerrSlope s'.nonlinearity i j‖ ≤ κ1
          rw [hf1.nonlin]
          exact kerrSlope_le h.slope i j) hω x i0 j0
        (fun i j => by
          show |(o'.eps_m - 1) * drhob_drhot (rho2rhot x o'.W i j) o'.eta o'.beta * (o'.W (finProdFinEquiv (i0, j0)) (finProdFinEquiv (i, j)) * o'.design_region i j)| ≤ ω
          rw [hs.at'.same.eps_m, hs.at'.same.W, hs.at'.same.eta, hs.at'.same.beta, hs.at'.same.design]
          exact h.chain x hbx i0 j0 i j) hE hZR hck.1 hd hck.2 (p := J.partials k fun _ => E) (p0 := J.partials k fun _ => Z) le_rfl le_rfl
        (args.get (k.cast hlen.symm)) (h.arg_nl (List.get_mem _ _)).1
      have em : Spec.margin o1.simulation m = Spec.margin o.simulation m := hf1.margin m
      have eo : o1.simulation.omega = o.simulation.omega := hf1.omega
      have eL : o1.simulation.L0 = o.simulation.L0 := hf1.L0
      rw [em, eo, eL] at hc
      exact hc
    have hnn : (0 : ℝ) ≤ o.simulation.omega ^ 2 * EPSILON_0 * o.simulation.L0 * ω / Spec.margin o.simulation m := by
      have h1 := EPSILON_0_pos
      have h2 := h.valid.L0_pos
      have h3 := margin_pos hw1.coarse
      rw [hf1.margin] at h3
      positivity
    calc |∑ k, (argGrad2 env o1 x (ch k) E (J.partials k fun _ => E) (args.get (k.cast hlen.symm)) i0 j0 -
          argGrad2 env o1 x Z Z (J.partials k fun _ => Z) (args.get (k.cast hlen.symm)) i0 j0)| ≤ _ :=
        (Finset.abs_sum_le_sum_abs _ _).trans (Finset.sum_le_sum fun k _ => hone k)
      _ = o.simulation.omega ^ 2 * EPSILON_0 * o.simulation.L0 * ω / Spec.margin o.simulation m *
          (3 * ((1 + κ1 * R ^ 2) * R) * (∑ k, ∑ i, ∑ j, ‖J.partials k (fun _ => E) i j - J.partials k (fun _ => Z) i j‖) +
            (9 + 13 * κ1 * R ^ 2) * Spec.fieldTol Nx Ny R * ∑ k, ∑ i, ∑ j, ‖J.partials k (fun _ => Z) i j‖) := by
        rw [← Finset.mul_sum, Finset.sum_add_distrib, ← Finset.mul_sum, ← Finset.mul_sum]
      _ ≤ o.simulation.omega ^ 2 * EPSILON_0 * o.simulation.L0 * ω / Spec.margin o.simulation m *
          (3 * ((1 + κ1 * R ^ 2) * R) * (P1 * Spec.fieldTol Nx Ny R) + (9 + 13 * κ1 * R ^ 2) * Spec.fieldTol Nx Ny R * P) := by
        have b1 : ∑ k, ∑ i, ∑ j, ‖J.partials k (fun _ => E) i j - J.partials k (fun _ => Z) i j‖ ≤ P1 * Spec.fieldTol Nx Ny R := by
          refine (h.smooth (fun _ => E) (fun _ => Z) (fun _ => hE) fun _ => hZR).trans ?_
          refine mul_le_mul_of_nonneg_left ((pi_norm_le_iff_of_nonneg hδ).2 fun _ => ?_) h.lip
          exact hd
        have b2 := h.size (fun _ => Z) fun _ => hZR
        gcongr
      _ = Spec.gradTol o m κ1 R ω P P1 := by
        unfold Spec.gradTol
        ring

end Spec.KerrProblem

end Angler
