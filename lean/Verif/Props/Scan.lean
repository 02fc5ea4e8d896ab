import Verif.Props.Caching

/-! # C42 (FWHM of a frequency scan), C59 (what the scan evaluates) -/

namespace Angler

variable {Nx Ny : ℕ}

/-- The samples `i` of a list of `n` such that every sample from `i` to the centre `c` is above `HM`: the contiguous run around `c`. -/
def Spec.Peak (objs : ℕ → ℝ) (n c : ℕ) (HM : ℝ) (i : ℕ) : Prop := i < n ∧ ∀ k, min i c ≤ k → k ≤ max i c → HM < objs k

theorem countRun_iff (f : ℕ → Bool) (g : ℕ → ℕ) (n k : ℕ) : k < Opt.countRun f ((List.range n).map g) ↔ k < n ∧ ∀ k' ≤ k, f (g k') = true := by
  induction n generalizing g k with
  | zero => simp [Opt.countRun]
  | succ n ih =>
    rw [List.range_succ_eq_map, List.map_cons, List.map_map, Opt.countRun]
    by_cases h0 : f (g 0) = true
    · rw [if_pos h0]
      cases k with
      | zero =>
        refine ⟨fun _ => ⟨by omega, fun k' hk => ?_⟩, fun _ => by omega⟩
        rw [Nat.le_zero.1 hk]
        exact h0
      | succ k =>
        have h := ih (g ∘ Nat.succ) k
        constructor
        · intro hk
          obtain ⟨h1, h2⟩ := h.1 (by omega)
          refine ⟨by omega, fun k' hk' => ?_⟩
          cases k' with
          | zero => exact h0
          | succ k' => exact h2 k' (by omega)
        · rintro ⟨h1, h2⟩
          have := h.2 ⟨by omega, fun k' hk' => h2 (k' + 1) (by omega)⟩
          omega
    · rw [if_neg h0]
      exact ⟨fun h => absurd h (by omega), fun h => absurd (h.2 0 (by omega)) h0⟩

open Classical in
theorem count_peak (objs : ℕ → ℝ) (n c : ℕ) (HM : ℝ) (hcn : c < n) (hc : HM < objs c) :
    Opt.countRun (fun i => decide (HM < objs i)) ((List.range (n - c)).map fun k => c + k) +
      Opt.countRun (fun i => decide (HM < objs i)) ((List.range c).map fun k => c - 1 - k) = ((Finset.range n).filter (Spec.Peak objs n c HM)).card := by
  set U := Opt.countRun (fun i => decide (HM < objs i)) ((List.range (n - c)).map fun k => c + k) with hU
  set D := Opt.countRun (fun i => decide (HM < objs i)) ((List.range c).map fun k => c - 1 - k) with hD
  have up : ∀ k, k < U ↔ k < n - c ∧ ∀ k' ≤ k, HM < objs (c + k') := fun k => by
    rw [hU, countRun_iff]
    simp only [decide_eq_true_eq]
  have down : ∀ k, k < D ↔ k < c ∧ ∀ k' ≤ k, HM < objs (c - 1 - k') := fun k => by
    rw [hD, countRun_iff]
    simp only [decide_eq_true_eq]
  have hDc : D ≤ c := by
    by_contra h
    have := ((down c).1 (by omega)).1
    omega
  have hset : (Finset.range n).filter (Spec.Peak objs n c HM) = Finset.Ico (c - D) (c + U) := by
    ext i
    rw [Finset.mem_filter, Finset.mem_range, Finset.mem_Ico]
    constructor
    · rintro ⟨hi, -, hp⟩
      rcases Nat.lt_or_ge i c with hic | hic
      · have : c - 1 - i < D := (down _).2 ⟨by omega, fun k' hk' => hp _ (by omega) (by omega)⟩
        omega
      · have : i - c < U := (up _).2 ⟨by omega, fun k' hk' => hp _ (by omega) (by omega)⟩
        omega
    · rintro ⟨h1, h2⟩
      rcases Nat.lt_or_ge i c with hic | hic
      · have h := (down (c - 1 - i)).1 (by omega)
        refine ⟨by omega, by omega, fun k hk1 hk2 => ?_⟩
        rcases Nat.lt_or_ge k c with hkc | hkc
        · have := h.2 (c - 1 - k) (by omega)
          rwa [show c - 1 - (c - 1 - k) = k by omega] at this
        · rwa [show k = c by omega]
      · have h := (up (i - c)).1 (by omega)
        refine ⟨by omega, by omega, fun k hk1 hk2 => ?_⟩
        have := h.2 (k - c) (by omega)
        rwa [show c + (k - c) = k by omega] at this
  rw [hset, Nat.card_Ico]
  omega

theorem scanLoop_length (env : Env) (fs : List ℝ) (o o' : Opt Nx Ny) (objs : List ℝ) (h : Opt.scanLoop env fs o = (.ok objs, o')) : objs.length = fs.length := by
  induction fs generalizing o objs with
  | nil =>
    have : objs = [] := by cases h; rfl
    rw [this]
  | cons f fs ih =>
    unfold Opt.scanLoop at h
    generalize Opt.scanOne env f o = R at h
    obtain ⟨e | J, o1⟩ := R
    · cases h
    · simp only [pySeq] at h
      rcases hr : Opt.scanLoop env fs o1 with ⟨e | Js, o2⟩
      · rw [hr] at h; cases h
      · rw [hr] at h
        cases h
        rw [List.length_cons, List.length_cons, ih _ _ hr]

/-- The number of samples in the contiguous run above half of the largest value around the centre sample `⌊n/2⌋`. -/
noncomputable def Spec.peakCount (objs : List ℝ) (m : ℝ) : ℕ := by
  classical
  exact ((Finset.range objs.length).filter (Spec.Peak (fun i => objs.getD i 0) objs.length (objs.length / 2) (m / 2))).card

theorem fwhm_eq (freqs objs : List ℝ) (m f0 f1 : ℝ) (hm : m ∈ objs) (hmax : ∀ x ∈ objs, x ≤ m) (h0 : freqs[0]? = some f0) (h1 : freqs[1]? = some f1)
    (hc : m / 2 < objs.getD (objs.length / 2) 0) : Opt.fwhm freqs objs objs.length = .ok (Spec.peakCount objs m * (f1 - f0)) := by
  have hmx : objs.max? = some m := List.max?_eq_some_iff.2 ⟨hm, hmax⟩
  have hlen : 0 < objs.length := List.length_pos_of_mem hm
  unfold Opt.fwhm
  rw [hmx, h0, h1]
  simp only
  have h := count_peak (fun i => objs.getD i 0) objs.length (objs.length / 2) (m / 2) (by omega) hc
  rw [h]
  rfl

/-- **C42 (partial).** If the centre sample of a scan is above half maximum, the returned width is the number of samples in the contiguous run above half maximum around the
centre times the (uniform) frequency spacing.  Missing: centre sample not above half maximum, where the code still counts the samples just below the centre (`C42_false`). -/
theorem C42_fwhm_partial (env : Env) (Nf : ℕ) (df : ℝ) (o o' : Opt Nx Ny) (freqs objs : List ℝ) (w m : ℝ)
    (h : Opt.scan_frequency env Nf df o = (.ok (freqs, objs, w), o')) (hm : m ∈ objs) (hmax : ∀ x ∈ objs, x ≤ m) (hc : m / 2 < objs.getD (objs.length / 2) 0) :
    objs.length = Nf ∧ freqs.length = Nf ∧ ∃ step : ℝ, w = Spec.peakCount objs m * step ∧ ∀ k (hk : k < freqs.length), freqs[k] = freqs.headD 0 + k * step := by
  unfold Opt.scan_frequency at h
  simp only at h
  rcases hl : Opt.scanLoop env (Opt.scanFreqs o.simulation.omega df Nf) o with ⟨e | Js, o1⟩
  · rw [hl] at h; cases h
  · rw [hl] at h
    simp only [pySeq] at h
    have hlen := scanLoop_length env _ _ _ _ hl
    have hfl : (Opt.scanFreqs o.simulation.omega df Nf).length = Nf := by simp [Opt.scanFreqs]
    rw [hfl] at hlen
    rcases hw : Opt.fwhm (Opt.scanFreqs o.simulation.omega df Nf) Js Nf with e | w'
    · rw [hw] at h; cases h
    · rw [hw] at h
      cases h
      refine ⟨hlen, hfl, ?_⟩
      have hN : 2 ≤ Nf := by
        by_contra hN
        have h1 : (Opt.scanFreqs o.simulation.omega df Nf)[1]? = none := List.getElem?_eq_none (by omega)
        unfold Opt.fwhm at hw
        rw [h1] at hw
        generalize objs.max? = M at hw
        rcases M with _ | M
        · cases hw
        · simp only at hw
          generalize (Opt.scanFreqs o.simulation.omega df Nf)[0]? = F at hw
          rcases F with _ | F <;> cases hw
      have hfk : ∀ k (hk : k < (Opt.scanFreqs o.simulation.omega df Nf).length), (Opt.scanFreqs o.simulation.omega df Nf)[k] =
          1 / 2 / Real.pi * Opt.linspace (o.simulation.omega - o.simulation.omega * df / 2) (o.simulation.omega + o.simulation.omega * df / 2) Nf k := fun k hk => by
        simp [Opt.scanFreqs]
      have h0 : (Opt.scanFreqs o.simulation.omega df Nf)[0]? = some _ := List.getElem?_eq_getElem (by omega)
      have h1 : (Opt.scanFreqs o.simulation.omega df Nf)[1]? = some _ := List.getElem?_eq_getElem (by omega)
      have hwe := fwhm_eq _ objs m _ _ hm hmax h0 h1 hc
      rw [hlen, hw] at hwe
      refine ⟨_, Except.ok.inj hwe, fun k hk => ?_⟩
      have hh : (Opt.scanFreqs o.simulation.omega df Nf).headD 0 = (Opt.scanFreqs o.simulation.omega df Nf)[0] := by
        rw [List.headD_eq_head?_getD, List.head?_eq_getElem?, h0]
        rfl
      rw [hh, hfk, hfk, hfk]
      unfold Opt.linspace
      have : ((Nf : ℝ) - 1) ≠ 0 := by
        have : (2 : ℝ) ≤ Nf := by exact_mod_cast hN
        linarith
      rw [if_neg (by omega), if_neg (by omega), if_neg (by omega)]
      push_cast
      ring

/-- Five samples with a peak of three around the centre. -/
example : Opt.fwhm [1, 2, 3, 4, 5] [0, 3, 4, 3, 1] 5 = .ok (3 * (2 - 1)) := by
  have h := fwhm_eq [1, 2, 3, 4, 5] [0, 3, 4, 3, 1] 4 1 2 (by simp) (by intro x hx; fin_cases hx <;> norm_num) rfl rfl (by norm_num)
  have hs : Spec.peakCount [0, 3, 4, 3, 1] 4 = 3 := by
    classical
    have : (Finset.range 5).filter (Spec.Peak (fun i => ([0, 3, 4, 3, 1] : List ℝ).getD i 0) 5 2 (4 / 2)) = {1, 2, 3} := by
      ext i
      simp only [Finset.mem_filter, Finset.mem_range, Finset.mem_insert, Finset.mem_singleton, Spec.Peak]
      constructor
      · rintro ⟨hi, -, hp⟩
        have h0 := hp i (by omega) (by omega)
        have : i = 0 ∨ i = 4 ∨ i = 1 ∨ i = 2 ∨ i = 3 := by omega
        rcases this with rfl | rfl | h | h | h
        · norm_num at h0
        · norm_num at h0
        all_goals omega
      · intro hi
        refine ⟨by omega, by omega, fun k h1 h2 => ?_⟩
        have hk : k = 1 ∨ k = 2 ∨ k = 3 := by omega
        rcases hk with rfl | rfl | rfl <;> norm_num
    exact congrArg Finset.card this
  rw [hs] at h
  exact_mod_cast h

/-- **C42, negation.** With the values `[1, 0]` the centre sample is below half maximum, so the run around it is empty, yet the reported width is one spacing. -/
theorem C42_false (f0 f1 : ℝ) : Opt.fwhm [f0, f1] [1, 0] 2 = .ok (f1 - f0) ∧ Spec.peakCount [1, 0] 1 = 0 := by
  constructor
  · have hm : ([1, 0] : List ℝ).max? = some 1 := List.max?_eq_some_iff.2 ⟨by simp, by intro x hx; fin_cases hx <;> norm_num⟩
    unfold Opt.fwhm
    rw [hm]
    have h1 : ¬ ((1 : ℝ) / 2 < 0) := by norm_num
    have h2 : ((1 : ℝ) / 2 < 1) := by norm_num
    simp [Opt.countRun, List.range_succ, h1, h2]
    norm_num
  · classical
    refine Finset.card_eq_zero.2 (Finset.filter_eq_empty_iff.2 ?_)
    rintro i - ⟨-, hp⟩
    have h := hp 1 (by simp) (by simp)
    norm_num at h

/-! ## C59 -/

theorem scanLoop_get (env : Env) (J : ObjFn Nx Ny) (args : List ObjArg) (hlen : args.length = J.arity) (fs : List ℝ) (o o' : Opt Nx Ny) (objs : List ℝ)
    (hL : Spec.LinearObjective o J args o.simulation) (h : Opt.scanLoop env fs o = (.ok objs, o')) :
    objs = fs.map fun f => Spec.freshJ env J args hlen (({ o.simulation with omega := 2 * Real.pi * f } : Sim Nx Ny).set_eps_r o.simulation.eps_r) := by
  induction fs generalizing o objs with
  | nil => cases h; rfl
  | cons f fs ih =>
    unfold Opt.scanLoop at h
    have hk := scanOne_keep env f o
    have hv : (Opt.scanOne env f o).1 = .ok (Spec.freshJ env J args hlen (({ o.simulation with omega := 2 * Real.pi * f } : Sim Nx Ny).set_eps_r o.simulation.eps_r)) := by
      have h1 := C35_fresh_partial env { o with fields_current := false } (some (({ o.simulation with omega := 2 * Real.pi * f } : Sim Nx Ny).set_eps_r o.simulation.eps_r)) J args
        ⟨hL.obj, hL.lin, hL.comps⟩ hlen rfl
      unfold Opt.scanOne
      simp only
      generalize Opt.compute_J env { o with fields_current := false } (some (({ o.simulation with omega := 2 * Real.pi * f } : Sim Nx Ny).set_eps_r o.simulation.eps_r)) = R at h1 ⊢
      obtain ⟨e | v, r⟩ := R
      · cases h1
      · exact h1
    generalize Opt.scanOne env f o = R at h hk hv
    obtain ⟨e | v, o1⟩ := R
    · cases h
    · simp only [pySeq] at h
      rcases hr : Opt.scanLoop env fs o1 with ⟨e | Js, o2⟩
      · rw [hr] at h; cases h
      · rw [hr] at h
        cases h
        have hs : o1.simulation = o.simulation := hk.2
        have hob : o1.objective = o.objective := hk.1.objective
        have := ih o1 Js ⟨by rw [hob]; exact hL.obj, hL.lin, by rw [hs]; exact hL.comps⟩ hr
        rw [hs] at this
        rw [List.map_cons, ← this, Except.ok.inj hv]

/-- Valid simulations with the same parameters have the same fresh fields. -/
theorem freshField_valid (env : Env) {s t : Sim Nx Ny} (hs : s.Valid) (ht : t.Valid) (h1 : t.omega = s.omega) (h2 : t.L0 = s.L0) (h3 : t.dl = s.dl) (h4 : t.NPML = s.NPML)
    (h5 : t.pol = s.pol) (h6 : t.eps_r = s.eps_r) (h7 : t.src = s.src) (c : Comp) (hc : Spec.belongs s.pol c) : Spec.freshField env t c = Spec.freshField env s c := by
  have hA : t.A = s.A := by rw [ht.A_eq, hs.A_eq, ht.xr, ht.yr, hs.xr, hs.yr, h1, h2, h3, h4, h5, h6]
  have hd : t.derivs = s.derivs := by rw [ht.derivs_eq, hs.derivs_eq, ht.xr, ht.yr, hs.xr, hs.yr, h1, h2, h3, h4]
  have hx : t.xrange = s.xrange := by rw [ht.xr, hs.xr, h3]
  have hy : t.yrange = s.yrange := by rw [ht.yr, hs.yr, h3]
  let s' : Sim Nx Ny := { s with nonlinearity := t.nonlinearity, rho := t.rho }
  have e1 : Spec.freshField env s' c = Spec.freshField env s c := rfl
  have e2 : SimKeep s' t := by
    obtain ⟨⟩ := s
    obtain ⟨⟩ := t
    simp only at *
    subst h1 h2 h3 h4 h5 h6 h7 hA hd hx hy
    rfl
  rw [← e1]
  exact freshField_congr env e2 c hc

/-- **C59.** For a linear objective, sample `k` of a completed scan is the objective on the fields of a newly constructed simulation with the same permittivity, grid, PML,
polarisation and source at the frequency `ω (1 + df (k/(Nf-1) - 1/2))`; the frequencies returned are those over `2π`. -/
theorem C59_scan_values (env : Env) (Nf : ℕ) (df : ℝ) (o o' : Opt Nx Ny) (J : ObjFn Nx Ny) (args : List ObjArg) (hlen : args.length = J.arity)
    (hL : Spec.LinearObjective o J args o.simulation) (hv : o.simulation.Valid) (freqs objs : List ℝ) (w : ℝ)
    (h : Opt.scan_frequency env Nf df o = (.ok (freqs, objs, w), o')) (k : ℕ) (hk : k < Nf) :
    let om := o.simulation.omega * (1 + df * (k / ((Nf : ℝ) - 1) - 1 / 2))
    freqs[k]? = some (om / (2 * Real.pi)) ∧
    ∀ t : Sim Nx Ny, Sim.init om o.simulation.eps_r o.simulation.dl (.list [o.simulation.NPML.1, o.simulation.NPML.2]) (Spec.polName o.simulation.pol) o.simulation.L0 = .ok t →
      objs[k]? = some (Spec.freshJ env J args hlen { t with src := o.simulation.src }) := by
  intro om
  unfold Opt.scan_frequency at h
  simp only at h
  rcases hl : Opt.scanLoop env (Opt.scanFreqs o.simulation.omega df Nf) o with ⟨e | Js, o1⟩
  · rw [hl] at h; cases h
  · rw [hl] at h
    simp only [pySeq] at h
    rcases hw : Opt.fwhm (Opt.scanFreqs o.simulation.omega df Nf) Js Nf with e | w'
    · rw [hw] at h; cases h
    · have hN : 2 ≤ Nf := by
        by_contra hN
        have h1 : (Opt.scanFreqs o.simulation.omega df Nf)[1]? = none := List.getElem?_eq_none (by simp [Opt.scanFreqs]; omega)
        unfold Opt.fwhm at hw
        rw [h1] at hw
        generalize Js.max? = M at hw
        rcases M with _ | M
        · cases hw
        · simp only at hw
          generalize (Opt.scanFreqs o.simulation.omega df Nf)[0]? = F at hw
          rcases F with _ | F <;> cases hw
      rw [hw] at h
      cases h
      have hpi := Real.pi_ne_zero
      have hNf : ((Nf : ℝ) - 1) ≠ 0 := by
        have : (2 : ℝ) ≤ Nf := by exact_mod_cast hN
        linarith
      have hf : (Opt.scanFreqs o.simulation.omega df Nf)[k]? = some (om / (2 * Real.pi)) := by
        unfold Opt.scanFreqs
        rw [List.getElem?_map, List.getElem?_range hk]
        simp only [Option.map_some, Opt.linspace]
        rw [if_neg (by omega)]
        congr 1
        simp only [om]
        field_simp
        ring
      refine ⟨hf, fun t ht => ?_⟩
      rw [scanLoop_get env J args hlen _ o o' objs hL hl, List.getElem?_map, hf]
      simp only [Option.map_some]
      congr 1
      have hom : 2 * Real.pi * (om / (2 * Real.pi)) = om := by field_simp
      rw [hom]
      obtain ⟨hok, -, hall⟩ := C20_constructor_validation (Nx := Nx) (Ny := Ny) om o.simulation.eps_r o.simulation.dl (.list [o.simulation.NPML.1, o.simulation.NPML.2])
        (Spec.polName o.simulation.pol) o.simulation.L0
      obtain ⟨tv, t1, t2, t3, t4, t5, t6, -, -⟩ := hall t ht
      have t6' := t6 _ _ rfl
      rw [Nat.floor_natCast, Nat.floor_natCast] at t6'
      have tp : t.pol = o.simulation.pol := by
        have hinj : ∀ p q : Pol, Spec.polName p = Spec.polName q → p = q := by
          intro p q hpq
          cases p <;> cases q <;> first | rfl | exact absurd hpq (by decide)
        exact hinj _ _ t5
      have sv : (({ o.simulation with omega := om } : Sim Nx Ny).set_eps_r o.simulation.eps_r).Valid :=
        ⟨hv.L0_pos, (hok.1 ⟨t, ht⟩).2.1, hv.xr, hv.yr, rfl, construct_A_derivs _ _ _ _ _ _ _ _⟩
      have tv' : ({ t with src := o.simulation.src } : Sim Nx Ny).Valid := ⟨tv.L0_pos, tv.omega_pos, tv.xr, tv.yr, tv.A_eq, tv.derivs_eq⟩
      unfold Spec.freshJ
      congr 1
      funext q
      refine freshField_valid env tv' sv t1.symm t2.symm t3.symm t6'.symm tp.symm t4.symm rfl _ ?_
      show Spec.belongs t.pol _
      rw [tp]
      exact hL.comps _ (List.get_mem _ _)

theorem scanLoop_returns (env : Env) (J : ObjFn Nx Ny) (args : List ObjArg) (hlen : args.length = J.arity) (fs : List ℝ) (o : Opt Nx Ny)
    (hL : Spec.LinearObjective o J args o.simulation) : ∃ objs o', Opt.scanLoop env fs o = (.ok objs, o') := by
  induction fs generalizing o with
  | nil => exact ⟨[], o, rfl⟩
  | cons f fs ih =>
    have hk := scanOne_keep env f o
    have h1 := C35_fresh_partial env { o with fields_current := false } (some (({ o.simulation with omega := 2 * Real.pi * f } : Sim Nx Ny).set_eps_r o.simulation.eps_r)) J args
      ⟨hL.obj, hL.lin, hL.comps⟩ hlen rfl
    have hv : ∃ v, (Opt.scanOne env f o).1 = .ok v := by
      unfold Opt.scanOne
      simp only
      generalize Opt.compute_J env { o with fields_current := false } (some (({ o.simulation with omega := 2 * Real.pi * f } : Sim Nx Ny).set_eps_r o.simulation.eps_r)) = R at h1 ⊢
      obtain ⟨e | v, r⟩ := R
      · cases h1
      · exact ⟨v, rfl⟩
    unfold Opt.scanLoop
    generalize Opt.scanOne env f o = R at hk hv ⊢
    obtain ⟨e | v, o1⟩ := R
    · obtain ⟨_, hv⟩ := hv
      cases hv
    · have hs : o1.simulation = o.simulation := hk.2
      have hob : o1.objective = o.objective := hk.1.objective
      obtain ⟨Js, o2, hr⟩ := ih o1 ⟨by rw [hob]; exact hL.obj, hL.lin, by rw [hs]; exact hL.comps⟩
      exact ⟨v :: Js, o2, by simp only [pySeq, hr]⟩

/-- **C59, completion.** With a linear objective and at least two samples the scan returns. -/
theorem C59_scan_returns (env : Env) (Nf : ℕ) (df : ℝ) (o : Opt Nx Ny) (J : ObjFn Nx Ny) (args : List ObjArg) (hlen : args.length = J.arity)
    (hL : Spec.LinearObjective o J args o.simulation) (hN : 2 ≤ Nf) : ∃ (r : List ℝ × List ℝ × ℝ) (o' : Opt Nx Ny), Opt.scan_frequency env Nf df o = (.ok r, o') := by
  obtain ⟨objs, o', hl⟩ := scanLoop_returns env J args hlen (Opt.scanFreqs o.simulation.omega df Nf) o hL
  have hfl : (Opt.scanFreqs o.simulation.omega df Nf).length = Nf := by simp [Opt.scanFreqs]
  have hol := scanLoop_length env _ _ _ _ hl
  have hw : ∃ w, Opt.fwhm (Opt.scanFreqs o.simulation.omega df Nf) objs Nf = .ok w := by
    unfold Opt.fwhm
    rw [List.getElem?_eq_getElem (show 0 < _ by omega), List.getElem?_eq_getElem (show 1 < _ by omega)]
    rcases hm : objs.max? with _ | m
    · rw [List.max?_eq_none_iff] at hm
      rw [hm, hfl] at hol
      simp at hol
      omega
    · exact ⟨_, rfl⟩
  obtain ⟨w, hw⟩ := hw
  refine ⟨(Opt.scanFreqs o.simulation.omega df Nf, objs, w), o', ?_⟩
  unfold Opt.scan_frequency
  simp only [hl, pySeq, hw]

/-- A scan of three samples on a witness. -/
example (env : Env) : ∃ (r : List ℝ × List ℝ × ℝ) (o' : Opt 4 4), Opt.scan_frequency env 3 (1 / 20)
    (gopt 1 (fun _ _ => 1) (Objective.mk' (intensityJ 4 4) [⟨.Ez, false, .linear_Ez⟩]) (fun _ _ => 1) 1) = (.ok r, o') :=
  C59_scan_returns env 3 (1 / 20) _ (intensityJ 4 4) [⟨.Ez, false, .linear_Ez⟩] rfl ⟨rfl, by
      intro a ha
      rw [List.mem_singleton] at ha
      rw [ha], by
      intro a ha
      rw [List.mem_singleton] at ha
      rw [ha]
      trivial⟩ (by norm_num)

end Angler
