import Verif.Model.ScanPower
import Verif.Props.Mode
import Verif.Props.NonlinearSolve
import Verif.Props.Maxwell
import Verif.Lemmas.CoarseSim

/-! # C65 (power scan), C66 (what the documented probe measures) -/

namespace Angler

open Finset Matrix

variable {Nx Ny : ℕ}

/-! ## Specification -/

/-- `n` amplitudes from `a` to `b` with equal ratios: the `k`-th. -/
noncomputable def Spec.geometric (a b : ℝ) (n k : ℕ) : ℝ := if n ≤ 1 then a else a * (b / a) ^ ((k : ℝ) / ((n : ℝ) - 1))

/-- `s2` is what the nonlinear solve with the chosen solver leaves, and `r` what it returns.  `'hybrid'` is Born's iteration, followed by Newton's if the last recorded relative change of Born's
is above the threshold. -/
def Spec.ScanSolved (env : Env) (solver : NlSolver) (s1 : Sim Nx Ny) (r : NlResult Nx Ny) (s2 : Sim Nx Ny) : Prop :=
  (solver ≠ .hybrid → solve_fields_nl env s1 none solver 1e-10 100 = (.ok r, s2)) ∧
  (solver = .hybrid → ∃ rb sb c, solve_fields_nl env s1 none .born 1e-10 100 = (.ok rb, sb) ∧ rb.conv[99]? = some c ∧
    ((¬ c.Gt 1e-10 ∧ r = rb ∧ s2 = sb) ∨ (c.Gt 1e-10 ∧ solve_fields_nl env sb none .newton 1e-10 100 = (.ok r, s2))))

/-! ## The loop -/

theorem logspace_eq (a b : ℝ) (ha : 0 < a) (hb : 0 < b) (n k : ℕ) : logspace a b n k = Spec.geometric a b n k := by
  unfold logspace Spec.geometric Opt.linspace
  split
  · exact Real.rpow_logb (by norm_num) (by norm_num) ha
  · rw [Real.rpow_add (by norm_num), Real.rpow_logb (by norm_num) (by norm_num) ha, ← Real.logb_div hb.ne' ha.ne',
      show (k : ℝ) * (Real.logb 10 (b / a) / ((n : ℝ) - 1)) = Real.logb 10 (b / a) * ((k : ℝ) / ((n : ℝ) - 1)) by ring, Real.rpow_mul (by norm_num),
      Real.rpow_logb (by norm_num) (by norm_num) (div_pos hb ha)]

theorem geometric_pos (a b : ℝ) (ha : 0 < a) (hb : 0 < b) (n k : ℕ) : 0 < Spec.geometric a b n k := by
  unfold Spec.geometric
  split
  · exact ha
  · exact mul_pos ha (Real.rpow_pos_of_pos (div_pos hb ha) _)

theorem runProbes_spec (W : ℝ) (ps : List (Probe Nx Ny)) (hp : ∀ p ∈ ps, ∀ s, (p s).2 = s) (s : Sim Nx Ny) (row : List PyFloat) (h : runProbes W ps s = .ok row) :
    row.length = ps.length ∧ ∀ (i : ℕ) (p : Probe Nx Ny), ps[i]? = some p → ∃ w, (p s).1 = .ok w ∧ row[i]? = some (PyFloat.div w W) := by
  induction ps generalizing row with
  | nil =>
    cases h
    exact ⟨rfl, fun i p hi => by simp at hi⟩
  | cons p ps ih =>
    unfold runProbes at h
    have hs := hp p List.mem_cons_self s
    generalize hR : p s = R at h
    obtain ⟨e | w, s'⟩ := R
    · cases h
    · rw [hR] at hs
      have hs' : s' = s := hs
      subst hs'
      simp only [bind, Except.bind, pure, Except.pure] at h
      generalize hQ : runProbes W ps s' = Q at h
      obtain e | rest := Q
      · cases h
      · cases h
        obtain ⟨hl, hi⟩ := ih (fun p hm => hp p (List.mem_cons_of_mem _ hm)) rest hQ
        refine ⟨by simp [hl], fun i q hq => ?_⟩
        cases i with
        | zero =>
          cases hq
          exact ⟨w, by rw [hR], rfl⟩
        | succ i => exact hi i q hq

theorem scanPowerLoop_spec (env : Env) (eg : Eigs) (modes : List Mode) (ps : List (Probe Nx Ny)) (solver : NlSolver) (s : Sim Nx Ny) (amps : List ℝ) (P0 : List ℝ) (T0 : List (List PyFloat))
    (P : List ℝ) (T : List (List PyFloat)) (hrow : ∀ amp row, scanPowerPass env eg modes ps solver s amp = .ok row → row.2.length = T0.length)
    (h : scanPowerLoop env eg modes ps solver s amps (P0, T0) = .ok (P, T)) :
    ∃ rows : List (ℝ × List PyFloat), List.Forall₂ (fun amp row => scanPowerPass env eg modes ps solver s amp = .ok row) amps rows ∧ P = P0 ++ rows.map Prod.fst ∧ T.length = T0.length ∧
      ∀ (i : ℕ) (t0 : List PyFloat), T0[i]? = some t0 → ∃ col : List PyFloat, T[i]? = some (t0 ++ col) ∧ List.Forall₂ (fun row x => row.2[i]? = some x) rows col := by
  induction amps generalizing P0 T0 with
  | nil =>
    cases h
    exact ⟨[], .nil, by simp, rfl, fun i t0 hi => ⟨[], by simpa using hi, .nil⟩⟩
  | cons amp amps ih =>
    unfold scanPowerLoop at h
    simp only [bind, Except.bind] at h
    generalize hR : scanPowerPass env eg modes ps solver s amp = R at h
    obtain e | ⟨W, row⟩ := R
    · cases h
    · have hl : row.length = T0.length := hrow amp _ hR
      have hz : (List.zipWith (fun t x => t ++ [x]) T0 row).length = T0.length := by simp [hl]
      obtain ⟨rows, h1, h2, h3, h4⟩ := ih (P0 ++ [W]) (List.zipWith (fun t x => t ++ [x]) T0 row) (fun a r hr => by rw [hz]; exact hrow a r hr) h
      refine ⟨(W, row) :: rows, .cons hR h1, by rw [h2]; simp, h3.trans hz, fun i t0 hi => ?_⟩
      have hi' : i < row.length := by
        rw [hl]
        exact (List.getElem?_eq_some_iff.1 hi).1
      obtain ⟨x, hx⟩ : ∃ x, row[i]? = some x := ⟨_, List.getElem?_eq_getElem hi'⟩
      obtain ⟨col, hc1, hc2⟩ := h4 i (t0 ++ [x]) (by rw [List.getElem?_zipWith, hi, hx])
      exact ⟨x :: col, by rw [hc1]; simp, .cons hx hc2⟩

theorem forall2_getElem {α β : Type*} {R : α → β → Prop} {l : List α} {m : List β} (h : List.Forall₂ R l m) (k : ℕ) (a : α) (ha : l[k]? = some a) : ∃ b, m[k]? = some b ∧ R a b := by
  induction h generalizing k with
  | nil => simp at ha
  | cons hr _ ih =>
    cases k with
    | zero => cases ha; exact ⟨_, rfl, hr⟩
    | succ k => exact ih k ha

theorem scanSolve_spec (env : Env) (solver : NlSolver) (s1 : Sim Nx Ny) (r : NlResult Nx Ny) (s2 : Sim Nx Ny) (h : scanSolve env solver s1 = (.ok r, s2)) : Spec.ScanSolved env solver s1 r s2 := by
  constructor
  · intro hs
    unfold scanSolve at h
    cases solver
    case hybrid => exact absurd rfl hs
    all_goals
      simp only at h
      exact h
  · rintro rfl
    unfold scanSolve at h
    simp only at h
    generalize hR : solve_fields_nl env s1 none .born 1e-10 100 = R at h ⊢
    obtain ⟨e | rb, sb⟩ := R
    · cases (Prod.mk.inj h).1
    · have hlen : rb.conv.length = 100 := by
        obtain ⟨E0, fl, m, conv, -, -, heq, -, -, hl, -, -⟩ := born_solve_spec env s1 none 1e-10 99
        unfold solve_fields_nl at hR
        simp only [heq] at hR
        cases hR
        exact hl
      have hlast : rb.conv.getLast? = rb.conv[99]? := by rw [List.getLast?_eq_getElem?, hlen]
      have hc : rb.conv[99]? = some rb.conv[99] := List.getElem?_eq_getElem (by omega)
      refine ⟨rb, sb, rb.conv[99], rfl, hc, ?_⟩
      simp only at h
      have hgd : rb.conv.getLast?.getD (.fin 0) = rb.conv[99] := by rw [hlast, hc]; rfl
      by_cases hg : (rb.conv[99]).Gt 1e-10
      · rw [if_pos (show (rb.conv.getLast?.getD (.fin 0)).Gt 1e-10 by rw [hgd]; exact hg)] at h
        exact Or.inr ⟨hg, h⟩
      · rw [if_neg (show ¬ (rb.conv.getLast?.getD (.fin 0)).Gt 1e-10 by rw [hgd]; exact hg)] at h
        cases h
        exact Or.inl ⟨hg, rfl, rfl⟩

theorem scanPowerPass_spec (env : Env) (eg : Eigs) (modes : List Mode) (ps : List (Probe Nx Ny)) (solver : NlSolver) (s : Sim Nx Ny) (amp W : ℝ) (row : List PyFloat)
    (h : scanPowerPass env eg modes ps solver s amp = .ok (W, row)) : ∃ md rest s1 r s2, modes = md :: rest ∧ setup_modes env eg [{ md with scale := amp }] (s, none) = (.ok (), (s1, some W)) ∧
      Spec.ScanSolved env solver s1 r s2 ∧ runProbes W ps s2 = .ok row := by
  unfold scanPowerPass at h
  cases modes with
  | nil => cases h
  | cons md rest =>
    simp only at h
    generalize hR : Mode.setup_src env eg { md with scale := amp } (s, none) = R at h
    obtain ⟨e | u, s1, _ | W'⟩ := R
    · cases h
    · cases h
    · cases h
    · simp only at h
      generalize hQ : scanSolve env solver s1 = Q at h
      obtain ⟨e | r, s2⟩ := Q
      · cases h
      · simp only [bind, Except.bind, pure, Except.pure] at h
        generalize hS : runProbes W' ps s2 = S at h
        obtain e | row' := S
        · cases h
        · cases h
          refine ⟨md, rest, s1, r, s2, rfl, ?_, scanSolve_spec _ _ _ _ _ hQ, hS⟩
          unfold setup_modes
          rw [hR]
          rfl

/-- **C65.** A power scan that returns has measured the device at `Ns` amplitudes with equal ratios from `s_min` to `s_max`: entry `k` of `powers` is the input power of the first mode scaled
to the `k`-th amplitude, and entry `k` of the `i`-th list of transmissions is what the `i`-th probe reads, after the nonlinear solve at that amplitude, divided by that power. -/
theorem C65_measures (env : Env) (eg : Eigs) (s : Sim Nx Ny) (modes : List Mode) (ps : List (Probe Nx Ny)) (hps : ∀ p ∈ ps, ∀ s, (p s).2 = s) (Ns : ℕ) (a b : ℝ) (solver : NlSolver) (P : List ℝ)
    (T : List (List PyFloat)) (h : scan_power env eg s modes (some ps) Ns a b solver = .ok (P, T)) :
    P.length = Ns ∧ T.length = ps.length ∧ (∀ t ∈ T, t.length = Ns) ∧
    ∀ k < Ns, ∃ md rest s1 W r s2, modes = md :: rest ∧ setup_modes env eg [{ md with scale := Spec.geometric a b Ns k }] (s, none) = (.ok (), (s1, some W)) ∧
      Spec.ScanSolved env solver s1 r s2 ∧ P[k]? = some W ∧
      ∀ (i : ℕ) (p : Probe Nx Ny), ps[i]? = some p → ∃ t w, T[i]? = some t ∧ (p s2).1 = .ok w ∧ t[k]? = some (PyFloat.div w W) := by
  unfold scan_power at h
  simp only at h
  split at h
  · rename_i hab
    have hrow : ∀ amp row, scanPowerPass env eg modes ps solver s amp = .ok row → row.2.length = (ps.map fun _ => ([] : List PyFloat)).length := by
      rintro amp ⟨W, row⟩ hr
      obtain ⟨-, -, -, -, s2, -, -, -, hr⟩ := scanPowerPass_spec _ _ _ _ _ _ _ _ _ hr
      rw [(runProbes_spec W ps hps s2 row hr).1, List.length_map]
    obtain ⟨rows, h1, h2, h3, h4⟩ := scanPowerLoop_spec _ _ _ _ _ _ _ _ _ _ _ hrow h
    have hlen : rows.length = Ns := by rw [← h1.length_eq]; simp
    have hT : T.length = ps.length := by rw [h3, List.length_map]
    have hget : ∀ i, i < ps.length → (ps.map fun _ => ([] : List PyFloat))[i]? = some [] := by
      intro i hi
      rw [List.getElem?_map, List.getElem?_eq_getElem hi]
      rfl
    refine ⟨by rw [h2]; simpa using hlen, hT, ?_, fun k hk => ?_⟩
    · intro t ht
      obtain ⟨i, hi, rfl⟩ := List.getElem_of_mem ht
      obtain ⟨col, hc1, hc2⟩ := h4 i [] (hget i (by omega))
      rw [List.getElem?_eq_getElem hi] at hc1
      rw [Option.some.inj hc1, List.nil_append, ← hc2.length_eq, hlen]
    · have hamp : ((List.range Ns).map (logspace a b Ns))[k]? = some (Spec.geometric a b Ns k) := by
        rw [List.getElem?_map, List.getElem?_range hk, Option.map_some, logspace_eq a b hab.1 hab.2]
      obtain ⟨⟨W, row⟩, hrk, hpass⟩ := forall2_getElem h1 k _ hamp
      obtain ⟨md, rest, s1, r, s2, hm, hset, hsol, hrun⟩ := scanPowerPass_spec _ _ _ _ _ _ _ _ _ hpass
      refine ⟨md, rest, s1, W, r, s2, hm, hset, hsol, ?_, fun i p hi => ?_⟩
      · rw [h2, List.nil_append, List.getElem?_map, hrk]
        rfl
      · obtain ⟨w, hw, hx⟩ := (runProbes_spec W ps hps s2 row hrun).2 i p hi
        obtain ⟨col, hc1, hc2⟩ := h4 i [] (hget i (List.getElem?_eq_some_iff.1 hi).1)
        obtain ⟨x, hx1, hx2⟩ := forall2_getElem hc2 k _ hrk
        rw [show (W, row).2[i]? = some (PyFloat.div w W) from hx] at hx2
        exact ⟨_, w, hc1, hw, by rw [List.nil_append, hx1, ← Option.some.inj hx2]⟩
  · cases h

/-- **C65, missing arguments.** Without probes the scan raises `ValueError`; a simulation without modes raises `IndexError` as soon as there is an amplitude to scan. -/
theorem C65_missing (env : Env) (eg : Eigs) (s : Sim Nx Ny) (modes : List Mode) (ps : List (Probe Nx Ny)) (Ns : ℕ) (a b : ℝ) (solver : NlSolver) :
    scan_power env eg s modes none Ns a b solver = .error .valueError ∧
    (0 < Ns → 0 < a → 0 < b → scan_power env eg s [] (some ps) Ns a b solver = .error .indexError) := by
  refine ⟨rfl, fun hN ha hb => ?_⟩
  unfold scan_power
  simp only
  rw [if_pos ⟨ha, hb⟩]
  obtain ⟨n, rfl⟩ : ∃ n, Ns = n + 1 := ⟨Ns - 1, by omega⟩
  rw [List.range_succ_eq_map, List.map_cons]
  rfl

/-! ## What the nonlinear solve leaves -/

/-- `s2` is `s1` with the nonlinear caches, the nonlinear fields `r`, and the linear fields of `s1` if there were any, else those of a linear solve. -/
def NlShape (env : Env) (s1 : Sim Nx Ny) (r : NlResult Nx Ny) (s2 : Sim Nx Ny) : Prop :=
  ∃ e1 e2 e3 A fnl fl, s2 = { s1 with eps_nl := e1, dnl_de := e2, dnl_deps := e3, Anl := A, fields := fl, fields_nl := Sim.store s1.pol fnl (r.Fx, r.Fy, r.Fz) } ∧
    (fl = s1.fields ∨ (s1.fields s1.pol.comp = none ∧ fl = (s1.solve_fields env).2.fields))

theorem nlShape_one (env : Env) (s1 : Sim Nx Ny) (E : Option (Grid Nx Ny ℂ)) (solver : NlSolver) (thr : ℝ) (n : ℕ) (r : NlResult Nx Ny) (s2 : Sim Nx Ny)
    (h : solve_fields_nl env s1 E solver thr n = (.ok r, s2)) : NlShape env s1 r s2 := by
  obtain ⟨sf, ⟨hc, hf⟩, ⟨e, he, -⟩ | ⟨r', h1, h2⟩⟩ := Frame.solve_fields_nl env s1 E solver thr n
  · rw [h] at he
    cases he
  · rw [h] at h1 h2
    cases h1
    have h2' : s2 = _ := h2
    refine ⟨sf.eps_nl, sf.dnl_de, sf.dnl_deps, sf.Anl, sf.fields_nl, sf.fields, ?_, hf⟩
    rw [h2', hc]

theorem nlShape_two (env : Env) (s1 sb s2 : Sim Nx Ny) (rb r : NlResult Nx Ny) (h1 : NlShape env s1 rb sb) (h2 : NlShape env sb r s2) : NlShape env s1 r s2 := by
  obtain ⟨e1, e2, e3, A, fnl, fl, rfl, hf⟩ := h1
  obtain ⟨e1', e2', e3', A', fnl', fl', rfl, hf'⟩ := h2
  refine ⟨e1', e2', e3', A', fnl', fl', rfl, ?_⟩
  rcases hf' with hf' | ⟨hn', hf'⟩
  · rw [hf']
    exact hf
  · have hn : fl s1.pol.comp = none := hn'
    rcases hf with rfl | ⟨-, hf⟩
    · exact Or.inr ⟨hn, hf'⟩
    · obtain ⟨f, hs⟩ := Frame.solved_comp env s1
      rw [hf, hs] at hn
      cases hn

theorem nlShape_scan (env : Env) (solver : NlSolver) (s1 : Sim Nx Ny) (r : NlResult Nx Ny) (s2 : Sim Nx Ny) (h : Spec.ScanSolved env solver s1 r s2) : NlShape env s1 r s2 := by
  by_cases hs : solver = .hybrid
  · obtain ⟨rb, sb, c, h1, -, ⟨-, rfl, rfl⟩ | ⟨-, h2⟩⟩ := h.2 hs
    · exact nlShape_one env _ _ _ _ _ _ _ h1
    · exact nlShape_two env _ _ _ _ _ (nlShape_one env _ _ _ _ _ _ _ h1) (nlShape_one env _ _ _ _ _ _ _ h2)
  · exact nlShape_one env _ _ _ _ _ _ _ (h.1 hs)

/-- Without (effective) nonlinearity the result is the linear solution. -/
theorem scanSolved_linear (env : Env) (solver : NlSolver) (s1 : Sim Nx Ny) (hl : ∀ n ∈ s1.nonlinearity, n.chi = 0) (r : NlResult Nx Ny) (s2 : Sim Nx Ny)
    (h : Spec.ScanSolved env solver s1 r s2) : (s1.solve_fields env).1 = .ok (r.Fx, r.Fy, r.Fz) := by
  by_cases hs : solver = .hybrid
  · obtain ⟨rb, sb, c, h1, -, ⟨-, rfl, rfl⟩ | ⟨-, h2⟩⟩ := h.2 hs
    · exact (C28_no_nonlinearity env _ hl _ _ _ _ _ _ h1).1
    · obtain ⟨e1, e2, e3, A, fnl, fl, rfl, -⟩ := nlShape_one env _ _ _ _ _ _ _ h1
      have := (C28_no_nonlinearity env _ (by exact hl) _ _ _ _ _ _ h2).1
      exact this
  · exact (C28_no_nonlinearity env _ hl _ _ _ _ _ _ (h.1 hs)).1

/-- The probe reads only the three components of the polarisation. -/
theorem flux_store (s s' : Sim Nx Ny) (nl nl' : Bool) (f f' : Fields Nx Ny) (t : Grid Nx Ny ℂ × Grid Nx Ny ℂ × Grid Nx Ny ℂ) (hp : s'.pol = s.pol) (hd : s'.dl = s.dl)
    (h : (if nl then s.fields_nl else s.fields) = Sim.store s.pol f t) (h' : (if nl' then s'.fields_nl else s'.fields) = Sim.store s.pol f' t) (dir : String) (center : ℤ × ℤ) (w : ℝ) :
    s'.flux_probe dir center w nl' = s.flux_probe dir center w nl := by
  unfold Sim.flux_probe
  rw [h, h', hp, hd]
  generalize Sim.probeInds dir center w = R
  obtain e | ⟨ax, ix, iy⟩ := R
  · rfl
  · cases s.pol <;> cases ax <;> rfl

/-- Multiplying the source of a regular system by `k` multiplies the linear flux by `|k|²`. -/
theorem linear_flux_scale (env : Env) (he : env.Exact) (s : Sim Nx Ny) (hdet : s.A.det ≠ 0) (x : Grid Nx Ny ℂ) (k : ℂ) (dir : String) (center : ℤ × ℤ) (w : ℝ) :
    (Sim.solve_fields env { s with src := fun i j => k * x i j }).2.flux_probe dir center w =
      ((Sim.solve_fields env { s with src := x }).2.flux_probe dir center w).map (‖k‖ ^ 2 * ·) := by
  obtain ⟨t1, t2, h1, -, h3⟩ := C15_linear_in_source env he s hdet false k 0 x (fun _ _ => 0)
  simp only [zero_mul, add_zero] at h3
  have hst : ∀ (y : Grid Nx Ny ℂ) (t : Grid Nx Ny ℂ × Grid Nx Ny ℂ × Grid Nx Ny ℂ), (Sim.solve_fields env { s with src := y }).1 = .ok t →
      (Sim.solve_fields env { s with src := y }).2.fields = Sim.store s.pol s.fields t := by
    intro y t hy
    simp only [Sim.solve_fields, if_true] at hy ⊢
    cases hy
    rfl
  rw [← C52_quadratic]
  refine flux_store _ _ false false (Spec.scaled k s.fields) s.fields ((fun i j => k * t1.1 i j), (fun i j => k * t1.2.1 i j), (fun i j => k * t1.2.2 i j)) ?_ ?_ ?_ ?_ dir center w
  · rfl
  · rfl
  · show Spec.scaled k (Sim.solve_fields env { s with src := x }).2.fields = Sim.store s.pol (Spec.scaled k s.fields) _
    rw [hst x t1 h1]
    funext c
    cases s.pol <;> cases c <;> rfl
  · exact hst _ _ h3

/-! ## Input power -/

/-- The source on the line of a mode, for every scale. -/
theorem overlay_scale (P : Fin Nx → Fin Ny → Prop) (u x : Grid Nx Ny ℂ) (hx : ∀ i j, ¬ P i j → x i j = 0) (t : ℝ) :
    overlay P (fun i j => signedAbs (1 * u i j * (t : ℂ))) x = fun i j => (t : ℂ) * overlay P (fun i j => signedAbs (1 * u i j * ((1 : ℝ) : ℂ))) x i j := by
  funext i j
  unfold overlay
  by_cases h : P i j
  · rw [if_pos h, if_pos h]
    show signedAbs (1 * u i j * (t : ℂ)) = t * signedAbs (1 * u i j * ((1 : ℝ) : ℂ))
    rw [signedAbs_real_mul, signedAbs_real_mul, Complex.ofReal_one, one_mul, one_mul]
  · rw [if_neg h, if_neg h, hx i j h, mul_zero]

theorem norm_scale (env : Env) (he : env.Exact) (eg : Eigs) (md : Mode) (s : Sim Nx Ny) (hsrc : ∀ i j, ¬ Spec.OnLine md i j → s.src i j = 0)
    (hst : ∀ eps nc, md.straight s.eps_r = .ok (eps, nc) → (s.set_eps_r eps).A.det ≠ 0) (t : ℝ) :
    Mode.compute_normalization env eg { md with scale := t } s = (Mode.compute_normalization env eg { md with scale := 1 } s).map (t ^ 2 * ·) := by
  unfold Mode.compute_normalization
  show (md.straight s.eps_r >>= _) = Except.map _ (md.straight s.eps_r >>= _)
  generalize hR : md.straight s.eps_r = R
  obtain e | ⟨eps, nc⟩ := R
  · rfl
  · show (do
        let src ← Mode.insert_mode eg { md with scale := t } (s.set_eps_r eps) s.src
        (Sim.solve_fields env { s.set_eps_r eps with src := src }).2.flux_probe md.direction_normal nc md.width : Except PyErr ℝ) = Except.map _ (do
        let src ← Mode.insert_mode eg { md with scale := 1 } (s.set_eps_r eps) s.src
        (Sim.solve_fields env { s.set_eps_r eps with src := src }).2.flux_probe md.direction_normal nc md.width : Except PyErr ℝ)
    have h1 := times_one eg
    rcases insert_mode_values eg md (s.set_eps_r eps) with ⟨e, h⟩ | ⟨u, h, -⟩
    · have ht := h 1 t s.src
      have ho := h 1 1 s.src
      rw [h1] at ht ho
      rw [ht, ho]
      rfl
    · have ht := h 1 t s.src
      have ho := h 1 1 s.src
      rw [h1] at ht ho
      rw [ht, ho, overlay_scale _ _ _ hsrc]
      show (Sim.solve_fields env { s.set_eps_r eps with src := _ }).2.flux_probe _ _ _ = Except.map _ ((Sim.solve_fields env { s.set_eps_r eps with src := _ }).2.flux_probe _ _ _)
      rw [linear_flux_scale env he _ (hst eps nc hR)]
      rw [Complex.norm_real, Real.norm_eq_abs, sq_abs]

/-- `setup_modes` with one scaled mode. -/
theorem setup_one (env : Env) (eg : Eigs) (md : Mode) (s s1 : Sim Nx Ny) (W : ℝ) (h : setup_modes env eg [md] (s, none) = (.ok (), (s1, some W))) :
    md.compute_normalization env eg s = .ok W ∧ ∃ src, md.insert_mode eg s s.src = .ok src ∧ s1 = { s with src := src } := by
  unfold setup_modes Mode.setup_src at h
  simp only at h
  generalize md.compute_normalization env eg s = R at h ⊢
  obtain e | W' := R
  · cases (Prod.mk.inj h).1
  · simp only at h
    generalize md.insert_mode eg s s.src = Q at h ⊢
    obtain e | src := Q
    · cases (Prod.mk.inj h).1
    · unfold setup_modes at h
      simp only [Prod.mk.injEq, true_and, Option.some.injEq] at h
      obtain ⟨rfl, rfl⟩ := h
      exact ⟨rfl, src, rfl, rfl⟩

/-- **C65, input power.** If the simulation has no source off the line of the mode, the recorded powers are the squares of the amplitudes times the input power of the mode at scale 1. -/
theorem C65_powers (env : Env) (he : env.Exact) (eg : Eigs) (s : Sim Nx Ny) (md : Mode) (rest : List Mode) (hsrc : ∀ i j, ¬ Spec.OnLine md i j → s.src i j = 0)
    (hst : ∀ eps nc, md.straight s.eps_r = .ok (eps, nc) → (s.set_eps_r eps).A.det ≠ 0) (ps : List (Probe Nx Ny)) (hps : ∀ p ∈ ps, ∀ s, (p s).2 = s) (Ns : ℕ) (hN : 0 < Ns) (a b : ℝ)
    (solver : NlSolver) (P : List ℝ) (T : List (List PyFloat)) (h : scan_power env eg s (md :: rest) (some ps) Ns a b solver = .ok (P, T)) :
    ∃ W1, Mode.compute_normalization env eg { md with scale := 1 } s = .ok W1 ∧ ∀ k < Ns, P[k]? = some (Spec.geometric a b Ns k ^ 2 * W1) := by
  obtain ⟨-, -, -, hk⟩ := C65_measures env eg s (md :: rest) ps hps Ns a b solver P T h
  have key : ∀ k < Ns, ∃ W, Mode.compute_normalization env eg { md with scale := Spec.geometric a b Ns k } s = .ok W ∧ P[k]? = some W := by
    intro k hkN
    obtain ⟨md', rest', s1, W, r, s2, hm, hset, -, hP, -⟩ := hk k hkN
    obtain ⟨rfl, rfl⟩ := List.cons.inj hm
    exact ⟨W, (setup_one env eg _ s s1 W hset).1, hP⟩
  obtain ⟨W0, h0, -⟩ := key 0 hN
  rw [norm_scale env he eg md s hsrc hst] at h0
  generalize hR : Mode.compute_normalization env eg { md with scale := 1 } s = R at h0
  obtain e | W1 := R
  · cases h0
  · refine ⟨W1, rfl, fun k hkN => ?_⟩
    obtain ⟨W, hW, hP⟩ := key k hkN
    rw [norm_scale env he eg md s hsrc hst, hR] at hW
    rw [hP]
    cases hW
    rfl

theorem div_common (c x y : ℝ) (hc : 0 < c) : PyFloat.div (c * x) (c * y) = PyFloat.div x y := by
  unfold PyFloat.div
  by_cases hy : y = 0
  · rw [if_neg (show ¬ c * y ≠ 0 by rw [hy, mul_zero]; exact fun h => h rfl), if_neg (show ¬ y ≠ 0 from fun h => h hy)]
    rcases lt_trichotomy x 0 with h | h | h
    · have := mul_neg_of_pos_of_neg hc h
      rw [if_neg this.not_gt, if_pos this, if_neg h.not_gt, if_pos h]
    · rw [h, mul_zero]
    · rw [if_pos (mul_pos hc h), if_pos h]
  · rw [if_pos (mul_ne_zero hc.ne' hy), if_pos hy, mul_div_mul_left _ _ hc.ne']

theorem solve_store (env : Env) (s : Sim Nx Ny) (t : Grid Nx Ny ℂ × Grid Nx Ny ℂ × Grid Nx Ny ℂ) (h : (s.solve_fields env).1 = .ok t) :
    (s.solve_fields env).2.fields = Sim.store s.pol s.fields t := by
  simp only [Sim.solve_fields, if_true] at h ⊢
  cases h
  rfl

/-- What a probe on the nonlinear field reads after the solve at one amplitude, in a linear device. -/
theorem linear_reading (env : Env) (solver : NlSolver) (s1 : Sim Nx Ny) (hl : ∀ n ∈ s1.nonlinearity, n.chi = 0) (r : NlResult Nx Ny) (s2 : Sim Nx Ny) (h : Spec.ScanSolved env solver s1 r s2)
    (dir : String) (center : ℤ × ℤ) (w : ℝ) : s2.flux_probe dir center w true = (s1.solve_fields env).2.flux_probe dir center w := by
  have hlin := scanSolved_linear env solver s1 hl r s2 h
  obtain ⟨e1, e2, e3, A, fnl, fl, rfl, -⟩ := nlShape_scan env solver s1 r s2 h
  refine flux_store (s1.solve_fields env).2 _ false true s1.fields fnl (r.Fx, r.Fy, r.Fz) ?_ ?_ (solve_store env s1 _ hlin) ?_ dir center w <;> rfl

/-- If the probe reads the linear field of the source at each amplitude, the transmission is the linear one at every amplitude. -/
theorem flat_of_reading (env : Env) (he : env.Exact) (eg : Eigs) (s : Sim Nx Ny) (hdet : s.A.det ≠ 0) (md : Mode) (rest : List Mode)
    (hsrc : ∀ i j, ¬ Spec.OnLine md i j → s.src i j = 0) (hst : ∀ eps nc, md.straight s.eps_r = .ok (eps, nc) → (s.set_eps_r eps).A.det ≠ 0)
    (ps : List (String × (ℤ × ℤ) × ℝ)) (Ns : ℕ) (hN : 0 < Ns) (a b : ℝ) (solver : NlSolver) (nl : Bool)
    (hread : ∀ x r s2, Spec.ScanSolved env solver { s with src := x } r s2 → ∀ dir center w v, s2.flux_probe dir center w nl = .ok v →
      (Sim.solve_fields env { s with src := x }).2.flux_probe dir center w = .ok v)
    (P : List ℝ) (T : List (List PyFloat)) (h : scan_power env eg s (md :: rest) (some (ps.map fun p => fluxProbe p.1 p.2.1 p.2.2 nl)) Ns a b solver = .ok (P, T)) :
    ∃ W1 src, Mode.compute_normalization env eg { md with scale := 1 } s = .ok W1 ∧ Mode.insert_mode eg { md with scale := 1 } s s.src = .ok src ∧
      ∀ (i : ℕ) p, ps[i]? = some p → ∃ t w1, T[i]? = some t ∧ (Sim.solve_fields env { s with src := src }).2.flux_probe p.1 p.2.1 p.2.2 = .ok w1 ∧ t = List.replicate Ns (PyFloat.div w1 W1) := by
  have hpure : ∀ p ∈ ps.map (fun p => (fluxProbe p.1 p.2.1 p.2.2 nl : Probe Nx Ny)), ∀ s, (p s).2 = s := by
    intro p hp s
    obtain ⟨q, -, rfl⟩ := List.mem_map.1 hp
    rfl
  obtain ⟨W1, hW1, hP⟩ := C65_powers env he eg s md rest hsrc hst _ hpure Ns hN a b solver P T h
  have hpos : 0 < a ∧ 0 < b := by
    unfold scan_power at h
    simp only at h
    split at h
    · assumption
    · cases h
  obtain ⟨-, hT, hlen, hk⟩ := C65_measures env eg s (md :: rest) _ hpure Ns a b solver P T h
  have hins : ∃ src, Mode.insert_mode eg { md with scale := 1 } s s.src = .ok src ∧ ∀ t : ℝ, Mode.insert_mode eg { md with scale := t } s s.src = .ok fun i j => (t : ℂ) * src i j := by
    obtain ⟨md', rest', s1, W, r, s2, hm, hset, -, -, -⟩ := hk 0 hN
    obtain ⟨rfl, rfl⟩ := List.cons.inj hm
    obtain ⟨-, src, hsr, -⟩ := setup_one env eg _ s s1 W hset
    have h1 := times_one eg
    rcases insert_mode_values eg md s with ⟨e, hv⟩ | ⟨u, hv, -⟩
    · have ht := hv 1 (Spec.geometric a b Ns 0) s.src
      rw [h1] at ht
      rw [hsr] at ht
      cases ht
    · have hv1 := hv 1
      rw [h1] at hv1
      refine ⟨_, hv1 1 s.src, fun t => ?_⟩
      rw [hv1 t s.src, overlay_scale _ _ _ hsrc]
  obtain ⟨src, hs1, hst'⟩ := hins
  refine ⟨W1, src, hW1, hs1, fun i p hi => ?_⟩
  have hip : (ps.map fun p => (fluxProbe p.1 p.2.1 p.2.2 nl : Probe Nx Ny))[i]? = some (fluxProbe p.1 p.2.1 p.2.2 nl) := by rw [List.getElem?_map, hi]; rfl
  have key : ∀ k < Ns, ∃ t w, T[i]? = some t ∧ (Sim.solve_fields env { s with src := fun i j => ((Spec.geometric a b Ns k : ℝ) : ℂ) * src i j }).2.flux_probe p.1 p.2.1 p.2.2 = .ok w ∧
      t[k]? = some (PyFloat.div w (Spec.geometric a b Ns k ^ 2 * W1)) := by
    intro k hkN
    obtain ⟨md', rest', s1, W, r, s2, hm, hset, hsol, hPk, hpr⟩ := hk k hkN
    obtain ⟨rfl, rfl⟩ := List.cons.inj hm
    obtain ⟨-, src', hsr, rfl⟩ := setup_one env eg _ s s1 W hset
    rw [hst'] at hsr
    cases hsr
    obtain ⟨t, w, h1, h2, h3⟩ := hpr i _ hip
    rw [hP k hkN] at hPk
    cases hPk
    exact ⟨t, w, h1, hread _ r s2 hsol p.1 p.2.1 p.2.2 w h2, h3⟩
  simp only [linear_flux_scale env he s hdet] at key
  obtain ⟨t, w, hti, hw, -⟩ := key 0 hN
  generalize (Sim.solve_fields env { s with src := src }).2.flux_probe p.1 p.2.1 p.2.2 = R at hw key
  obtain e | w1 := R
  · cases hw
  · refine ⟨t, w1, hti, rfl, ?_⟩
    have htl : t.length = Ns := hlen t (List.mem_of_getElem? hti)
    refine List.ext_getElem? fun k => ?_
    by_cases hkN : k < Ns
    · obtain ⟨t', w', ht', hw', hk'⟩ := key k hkN
      rw [hti] at ht'
      cases ht'
      cases hw'
      rw [hk', List.getElem?_replicate, if_pos hkN, Complex.norm_real, Real.norm_eq_abs, sq_abs, div_common _ _ _ (pow_pos (geometric_pos a b hpos.1 hpos.2 Ns k) 2)]
    · rw [List.getElem?_eq_none (by omega), List.getElem?_replicate, if_neg hkN]

/-- **C65, linear device.** In a device without (effective) nonlinearity and with no source off the line of the mode, the transmission read by a probe on the nonlinear field is the same at
every amplitude: the flux of the linear field of the mode at scale 1 over the input power of the mode at scale 1. -/
theorem C65_linear_device (env : Env) (he : env.Exact) (eg : Eigs) (s : Sim Nx Ny) (hdet : s.A.det ≠ 0) (hl : ∀ n ∈ s.nonlinearity, n.chi = 0) (md : Mode) (rest : List Mode)
    (hsrc : ∀ i j, ¬ Spec.OnLine md i j → s.src i j = 0) (hst : ∀ eps nc, md.straight s.eps_r = .ok (eps, nc) → (s.set_eps_r eps).A.det ≠ 0)
    (ps : List (String × (ℤ × ℤ) × ℝ)) (Ns : ℕ) (hN : 0 < Ns) (a b : ℝ) (solver : NlSolver) (P : List ℝ) (T : List (List PyFloat))
    (h : scan_power env eg s (md :: rest) (some (ps.map fun p => fluxProbe p.1 p.2.1 p.2.2 true)) Ns a b solver = .ok (P, T)) :
    ∃ W1 src, Mode.compute_normalization env eg { md with scale := 1 } s = .ok W1 ∧ Mode.insert_mode eg { md with scale := 1 } s s.src = .ok src ∧
      ∀ (i : ℕ) p, ps[i]? = some p → ∃ t w1, T[i]? = some t ∧ (Sim.solve_fields env { s with src := src }).2.flux_probe p.1 p.2.1 p.2.2 = .ok w1 ∧ t = List.replicate Ns (PyFloat.div w1 W1) := by
  exact flat_of_reading env he eg s hdet md rest hsrc hst ps Ns hN a b solver true (fun x r s2 h dir center w v hv => by rw [← linear_reading env solver { s with src := x } (by exact hl) r s2 h, hv]) P T h

/-! ## C66: what the probes read -/

/-- **C66 (partial).** A probe on the nonlinear field (`nl=True`) reads the field that the nonlinear solve at that amplitude returned.  Missing: the probe of the documentation, which leaves
`nl` at its default (`C66_fresh_false`, `C66_stale_false`, `C66_false`). -/
theorem C66_nonlinear_partial (env : Env) (eg : Eigs) (s : Sim Nx Ny) (modes : List Mode) (ps : List (String × (ℤ × ℤ) × ℝ)) (Ns : ℕ) (a b : ℝ) (solver : NlSolver) (P : List ℝ)
    (T : List (List PyFloat)) (h : scan_power env eg s modes (some (ps.map fun p => fluxProbe p.1 p.2.1 p.2.2 true)) Ns a b solver = .ok (P, T)) (k : ℕ) (hk : k < Ns) :
    ∃ md rest s1 W r s2, modes = md :: rest ∧ setup_modes env eg [{ md with scale := Spec.geometric a b Ns k }] (s, none) = (.ok (), (s1, some W)) ∧
      Spec.ScanSolved env solver s1 r s2 ∧ P[k]? = some W ∧
      ∀ (i : ℕ) p, ps[i]? = some p → ∃ t w, T[i]? = some t ∧ t[k]? = some (PyFloat.div w W) ∧
        Sim.flux_probe { s1 with fields := Sim.store s1.pol s1.fields (r.Fx, r.Fy, r.Fz) } p.1 p.2.1 p.2.2 = .ok w := by
  have hpure : ∀ p ∈ ps.map (fun p => (fluxProbe p.1 p.2.1 p.2.2 true : Probe Nx Ny)), ∀ s, (p s).2 = s := by
    intro p hp s
    obtain ⟨q, -, rfl⟩ := List.mem_map.1 hp
    rfl
  obtain ⟨-, -, -, hk'⟩ := C65_measures env eg s modes _ hpure Ns a b solver P T h
  obtain ⟨md, rest, s1, W, r, s2, hm, hset, hsol, hPk, hpr⟩ := hk' k hk
  refine ⟨md, rest, s1, W, r, s2, hm, hset, hsol, hPk, fun i p hi => ?_⟩
  obtain ⟨t, w, h1, h2, h3⟩ := hpr i (fluxProbe p.1 p.2.1 p.2.2 true) (by rw [List.getElem?_map, hi]; rfl)
  refine ⟨t, w, h1, h3, ?_⟩
  rw [← h2]
  obtain ⟨e1, e2, e3, A, fnl, fl, rfl, -⟩ := nlShape_scan env solver s1 r s2 hsol
  show _ = Sim.flux_probe _ p.1 p.2.1 p.2.2 true
  refine flux_store _ _ true false fnl s1.fields (r.Fx, r.Fy, r.Fz) ?_ ?_ ?_ ?_ p.1 p.2.1 p.2.2 <;> rfl

/-- Without stored fields the probe raises. -/
theorem flux_none (s : Sim Nx Ny) (hf : s.fields s.pol.comp = none) (dir : String) (center : ℤ × ℤ) (w v : ℝ) : s.flux_probe dir center w ≠ .ok v := by
  unfold Sim.flux_probe
  generalize Sim.probeInds dir center w = R
  obtain e | ⟨ax, ix, iy⟩ := R
  · intro h
    cases h
  · cases hp : s.pol <;> rw [hp] at hf
    · have hf' : s.fields .Ez = none := hf
      cases ax <;> simp only [bind, Except.bind, Bool.false_eq_true, if_false, Sim.getField, hf', reduceCtorEq, ne_eq, not_false_eq_true]
    · have hf' : s.fields .Hz = none := hf
      cases ax <;> simp only [bind, Except.bind, Bool.false_eq_true, if_false, Sim.getField, hf', reduceCtorEq, ne_eq, not_false_eq_true]

/-- **C66, negation for a simulation that has not been solved.** With the probe of the documentation (`nl` left at its default), whatever the nonlinearity, every transmission is that of the
linear device: the scan of a Kerr device shows no dependence on the power. -/
theorem C66_fresh_false (env : Env) (he : env.Exact) (eg : Eigs) (s : Sim Nx Ny) (hdet : s.A.det ≠ 0) (hf : s.fields s.pol.comp = none) (md : Mode) (rest : List Mode)
    (hsrc : ∀ i j, ¬ Spec.OnLine md i j → s.src i j = 0) (hst : ∀ eps nc, md.straight s.eps_r = .ok (eps, nc) → (s.set_eps_r eps).A.det ≠ 0)
    (ps : List (String × (ℤ × ℤ) × ℝ)) (Ns : ℕ) (hN : 0 < Ns) (a b : ℝ) (solver : NlSolver) (P : List ℝ) (T : List (List PyFloat))
    (h : scan_power env eg s (md :: rest) (some (ps.map fun p => fluxProbe p.1 p.2.1 p.2.2)) Ns a b solver = .ok (P, T)) :
    ∃ W1 src, Mode.compute_normalization env eg { md with scale := 1 } s = .ok W1 ∧ Mode.insert_mode eg { md with scale := 1 } s s.src = .ok src ∧
      ∀ (i : ℕ) p, ps[i]? = some p → ∃ t w1, T[i]? = some t ∧ (Sim.solve_fields env { s with src := src }).2.flux_probe p.1 p.2.1 p.2.2 = .ok w1 ∧ t = List.replicate Ns (PyFloat.div w1 W1) := by
  refine flat_of_reading env he eg s hdet md rest hsrc hst ps Ns hN a b solver false (fun x r s2 hs dir center w v hv => ?_) P T h
  obtain ⟨e1, e2, e3, A, fnl, fl, rfl, hfl⟩ := nlShape_scan env solver _ r s2 hs
  rcases hfl with rfl | ⟨-, rfl⟩
  · exact absurd hv (flux_none _ (by exact hf) dir center w v)
  · exact hv

/-- **C66, negation for a simulation that has been solved before.** With the probe of the documentation every entry is the flux of the fields stored before the scan, divided by the power at
that amplitude: the solves of the scan are not looked at. -/
theorem C66_stale_false (env : Env) (eg : Eigs) (s : Sim Nx Ny) (f : Grid Nx Ny ℂ) (hf : s.fields s.pol.comp = some f) (modes : List Mode) (ps : List (String × (ℤ × ℤ) × ℝ)) (Ns : ℕ) (hN : 0 < Ns)
    (a b : ℝ) (solver : NlSolver) (P : List ℝ) (T : List (List PyFloat)) (h : scan_power env eg s modes (some (ps.map fun p => fluxProbe p.1 p.2.1 p.2.2)) Ns a b solver = .ok (P, T)) :
    ∀ (i : ℕ) p, ps[i]? = some p → ∃ t w, T[i]? = some t ∧ s.flux_probe p.1 p.2.1 p.2.2 = .ok w ∧ t = P.map fun W => PyFloat.div w W := by
  have hpure : ∀ p ∈ ps.map (fun p => (fluxProbe p.1 p.2.1 p.2.2 : Probe Nx Ny)), ∀ s, (p s).2 = s := by
    intro p hp s
    obtain ⟨q, -, rfl⟩ := List.mem_map.1 hp
    rfl
  obtain ⟨hP, -, hlen, hk⟩ := C65_measures env eg s modes _ hpure Ns a b solver P T h
  intro i p hi
  have hip : (ps.map fun p => (fluxProbe p.1 p.2.1 p.2.2 : Probe Nx Ny))[i]? = some (fluxProbe p.1 p.2.1 p.2.2) := by rw [List.getElem?_map, hi]; rfl
  have key : ∀ k < Ns, ∃ t w W, T[i]? = some t ∧ s.flux_probe p.1 p.2.1 p.2.2 = .ok w ∧ P[k]? = some W ∧ t[k]? = some (PyFloat.div w W) := by
    intro k hkN
    obtain ⟨md, rest, s1, W, r, s2, hm, hset, hsol, hPk, hpr⟩ := hk k hkN
    obtain ⟨-, src, -, rfl⟩ := setup_one env eg _ s s1 W hset
    obtain ⟨t, w, h1, h2, h3⟩ := hpr i _ hip
    refine ⟨t, w, W, h1, ?_, hPk, h3⟩
    rw [← h2]
    obtain ⟨e1, e2, e3, A, fnl, fl, rfl, hfl⟩ := nlShape_scan env solver _ r s2 hsol
    have hfl' : fl = s.fields := by
      rcases hfl with hfl | ⟨hn, -⟩
      · exact hfl
      · rw [show s.fields s.pol.comp = none from hn] at hf
        cases hf
    subst hfl'
    rfl
  obtain ⟨t, w, -, hti, hw, -, -⟩ := key 0 hN
  refine ⟨t, w, hti, hw, List.ext_getElem? fun k => ?_⟩
  have htl : t.length = Ns := hlen t (List.mem_of_getElem? hti)
  by_cases hkN : k < Ns
  · obtain ⟨t', w', W, ht', hw', hPk, hk'⟩ := key k hkN
    rw [hti] at ht'
    rw [hw] at hw'
    cases ht'
    cases hw'
    rw [hk', List.getElem?_map, hPk]
    rfl
  · rw [List.getElem?_eq_none (by omega), List.getElem?_eq_none (by rw [List.length_map]; omega)]

/-! ### A uniform waveguide

A 3 × 2 grid of permittivity 10/9 with a point source `-i` at `(1,0)`; the mode writes its amplitude `t` at `(2,0)`. -/

noncomputable def usim (t : ℂ) : Sim 3 2 := fsim 0 (fun _ _ => 10 / 9) fun i j => if i = 2 ∧ j = 0 then t else if i = 1 ∧ j = 0 then -Complex.I else 0

/-- A mode on row 0 of column 2. -/
noncomputable def mode3 : Mode := { neff := 1, direction_normal := "x", center := (2, 1), width := 1, scale := 1, order := 1 }

/-- The field of a unit point source at `(0,0)`. -/
noncomputable def ugreen : Grid 3 2 ℂ := ![![64 / 315, -47 / 630], ![-11 / 315, 13 / 630], ![-11 / 315, 13 / 630]]

noncomputable def ufield (t : ℂ) : Grid 3 2 ℂ := fun i j => 9 * Complex.I * (t * ugreen (i - 2) j - Complex.I * ugreen (i - 1) j)

theorem next3 : Spec.next (0 : Fin 3) = 1 ∧ Spec.next (1 : Fin 3) = 2 ∧ Spec.next (2 : Fin 3) = 0 ∧ Spec.prev (0 : Fin 3) = 2 ∧ Spec.prev (1 : Fin 3) = 0 ∧ Spec.prev (2 : Fin 3) = 1 := by decide

theorem usim_field (env : Env) (he : env.Exact) (t : ℂ) : solver_direct env (usim t).A (usim t).rhs = flatten (ufield t) := by
  refine solver_direct_unique he (fsim_det (by norm_num) (by norm_num) 0 _ _ fun i j => ?_) ?_
  · rw [show (10 / 9 : ℂ) = ((10 / 9 : ℝ) : ℂ) by push_cast; rfl, Complex.norm_real]
    norm_num
  · unfold usim
    rw [fsim_apply (by norm_num) (by norm_num)]
    refine flat_ext fun i j => ?_
    obtain ⟨n0, n1, n2, p0, p1, p2⟩ := next3
    obtain ⟨m0, m1⟩ := next2 0
    obtain ⟨m2, m3⟩ := next2 1
    have hr : ∀ x : Grid 3 2 ℂ, (fsim 0 (fun _ _ => 10 / 9) x).rhs = flatten fun i j => x i j * Complex.I := by
      intro x
      funext k
      simp only [Sim.rhs, fsim, flatten]
      simp
    rw [hr, flatten_pair, flatten_pair]
    fin_cases i <;> fin_cases j <;> simp [ufield, ugreen, n0, n1, n2, p0, p1, p2, m0, m1, m2, m3] <;> ring_nf <;> simp <;> ring

/-- The stored out-of-plane and `Hy` fields after a linear solve, whatever was stored before. -/
theorem usim_solved (env : Env) (he : env.Exact) (t : ℂ) (fl : Fields 3 2) :
    (Sim.solve_fields env { usim t with fields := fl }).2.fields .Ez = some (ufield t) ∧
    (Sim.solve_fields env { usim t with fields := fl }).2.fields .Hy = some fun i j => (ufield t i j - ufield t (Spec.prev i) j) / (3 * Complex.I * ETA_0) := by
  have h : ({ usim t with fields := fl } : Sim 3 2).in_plane false (usim t).eps_r (solver_direct env (usim t).A ({ usim t with fields := fl } : Sim 3 2).rhs) =
      (usim t).in_plane false (fun _ _ => 10 / 9) (flatten (ufield t)) := by
    rw [← usim_field env he t]
    rfl
  have h2 := fsim_Hy (Nx := 3) (Ny := 2) (by norm_num) (by norm_num) false (fun _ _ => 10 / 9) (usim t).src (ufield t)
  constructor
  · simp only [Sim.solve_fields, if_true]
    show some (_ : _ × _ × _).2.2 = _
    rw [h]
    exact congrArg (fun x => some x.2) h2
  · simp only [Sim.solve_fields, if_true]
    show some (_ : _ × _ × _).2.1 = _
    rw [h]
    exact congrArg (fun x => some x.1) h2

theorem mode3_ends : pyInt (((1 : ℤ) : ℝ) - 1 / 2) = 0 ∧ pyInt (((1 : ℤ) : ℝ) + 1 / 2) = 1 := by
  constructor
  · unfold pyInt
    rw [if_pos (by norm_num), Int.floor_eq_iff]
    norm_num
  · unfold pyInt
    rw [if_pos (by norm_num), Int.floor_eq_iff]
    norm_num

theorem mode3_span : Spec.Span 2 (pyInt (((1 : ℤ) : ℝ) - 1 / 2)) (pyInt (((1 : ℤ) : ℝ) + 1 / 2)) 0 1 := by
  rw [mode3_ends.1, mode3_ends.2]
  exact ⟨by norm_num, Or.inl ⟨rfl, rfl, by norm_num⟩⟩

/-- The power through column 1, for a real amplitude `t` at `(2,0)`. -/
theorem usim_flux (env : Env) (he : env.Exact) (t : ℝ) (fl : Fields 3 2) : (Sim.solve_fields env { usim t with fields := fl }).2.flux_probe "x" (1, 1) 1 = .ok (t * ((64 ^ 2 - 11 ^ 2) * 81 / 4 / 315 ^ 2 / ETA_0 ^ 2)) := by
  obtain ⟨h1, h2⟩ := usim_solved env he t fl
  have hc : Spec.Denotes 3 1 1 1 := Or.inl ⟨rfl, by norm_num⟩
  rw [(C51_flux_x_partial (Sim.solve_fields env { usim t with fields := fl }).2 false 1 1 1 1 2 rfl 0 1 hc mode3_span _ rfl).1 _ _ rfl h1 h2]
  congr 1
  have hs : ∀ F : Fin 2 → ℝ, ∑ j with 0 ≤ (j : Fin 2).val ∧ j.val < 1, F j = F 0 := by
    intro F
    rw [show (Finset.univ.filter fun j : Fin 2 => 0 ≤ j.val ∧ j.val < 1) = {0} by decide, Finset.sum_singleton]
  rw [hs]
  have hE := ETA_0_pos.ne'
  have e0 : ufield t 0 0 = ⟨9 * (-11 / 315), 9 * t * (-11 / 315)⟩ := by
    apply Complex.ext <;> simp [ufield, ugreen, show (0 : Fin 3) - 2 = 1 by decide, show (0 : Fin 3) - 1 = 2 by decide] <;> ring
  have e1 : ufield t 1 0 = ⟨9 * (64 / 315), 9 * t * (-11 / 315)⟩ := by
    apply Complex.ext <;> simp [ufield, ugreen, show (1 : Fin 3) - 2 = 2 by decide] <;> ring
  have e2 : ufield t 2 0 = ⟨9 * (-11 / 315), 9 * t * (64 / 315)⟩ := by
    apply Complex.ext <;> simp [ufield, ugreen, show (2 : Fin 3) - 1 = 1 by decide] <;> ring
  have hH : (ufield t 1 0 - ufield t 0 0) / (3 * Complex.I * (ETA_0 : ℂ)) = ⟨0, -(3 * (75 / 315) / ETA_0)⟩ := by
    have hEc : (ETA_0 : ℂ) ≠ 0 := by exact_mod_cast hE
    rw [div_eq_iff (by simp [hEc]), e0, e1]
    apply Complex.ext
    · simp
      field_simp
      ring
    · simp
  show (3 / ETA_0) * Spec.Sx 0 ((ufield t 1 0 + ufield t 2 0) / 2) ((ufield t 1 0 - ufield t (Spec.prev 1) 0) / (3 * Complex.I * (ETA_0 : ℂ))) 0 = _
  rw [show Spec.prev (1 : Fin 3) = 0 by decide, hH, e1, e2]
  unfold Spec.Sx
  simp
  field_simp
  ring

theorem mode3_insert (s : Sim 3 2) (t : ℝ) (dest : Grid 3 2 ℂ) :
    Mode.insert_mode oneEigs { mode3 with scale := t } s dest = .ok fun i j => if i = 2 ∧ j = 0 then (t : ℂ) else dest i j := by
  have hin : Sim.probeInds mode3.direction_normal mode3.center mode3.width = .ok (.x, (2, 3), (0, 1)) := by
    have h : Sim.probeInds mode3.direction_normal mode3.center mode3.width = .ok (.x, (2, 2 + 1), (pyInt (((1 : ℤ) : ℝ) - 1 / 2), pyInt (((1 : ℤ) : ℝ) + 1 / 2))) := if_pos rfl
    rw [h, mode3_ends.1, mode3_ends.2]
    rfl
  have hrun : Mode.insert_mode oneEigs { mode3 with scale := t } s dest = placeMode .x dest (2, 3) (0, 1) (fun _ => 1 * (t : ℂ)) := by
    unfold Mode.insert_mode
    show (Sim.probeInds mode3.direction_normal mode3.center mode3.width >>= _) = _
    rw [hin]
    rfl
  have hsz : sliceLen 3 2 3 * sliceLen 2 0 1 = sliceLen 2 0 1 := by decide
  rw [hrun]
  unfold placeMode
  simp only
  rw [dif_pos hsz]
  congr 1
  funext i j
  unfold assign2
  have hiff : ((sliceIdx 3 2 ≤ i.val ∧ i.val < sliceIdx 3 3) ∧ (sliceIdx 2 0 ≤ j.val ∧ j.val < sliceIdx 2 1)) ↔ (i = 2 ∧ j = 0) := by
    revert i j
    decide
  by_cases h : i = 2 ∧ j = 0
  · rw [dif_pos (hiff.2 h), if_pos h, signedAbs_real_mul]
    unfold signedAbs
    simp
  · rw [dif_neg fun h' => h (hiff.1 h'), if_neg h]

theorem usim_straight : mode3.straight (fun (_ : Fin 3) (_ : Fin 2) => (10 / 9 : ℂ)) = .ok (fun _ _ => 10 / 9, (1, 1)) := by
  obtain ⟨eps, h1, h2⟩ := straight_x mode3 rfl (fun (_ : Fin 3) (_ : Fin 2) => (10 / 9 : ℂ)) 2 (pyIndex_natCast (n := 3) 2) (by norm_num)
  rw [h1]
  have hm : gridMax (fun (_ : Fin 3) (_ : Fin 2) => ‖(10 / 9 : ℂ)‖) = 10 / 9 := by
    have hn : ‖(10 / 9 : ℂ)‖ = 10 / 9 := by
      rw [show (10 / 9 : ℂ) = ((10 / 9 : ℝ) : ℂ) by push_cast; rfl, Complex.norm_real]
      norm_num
    rw [hn]
    unfold gridMax
    exact le_antisymm ((Finset.fold_max_le _).2 ⟨by norm_num, fun _ _ => le_rfl⟩) ((Finset.le_fold_max _).2 (Or.inr ⟨(0, 0), Finset.mem_univ _, le_rfl⟩))
  congr 2
  funext i j
  rw [(h2 i j).1 (Or.inl (by norm_num)), hm]
  push_cast
  rfl

/-- The power put in by the mode. -/
noncomputable def uK : ℝ := (64 ^ 2 - 11 ^ 2) * 81 / 4 / 315 ^ 2 / ETA_0 ^ 2

theorem uK_pos : 0 < uK := by
  have := ETA_0_pos
  unfold uK
  positivity

theorem usim_src (t : ℝ) (x : ℂ) : (fun i j => if i = 2 ∧ j = 0 then (t : ℂ) else (usim x).src i j) = (usim t).src := by
  funext i j
  show (if i = 2 ∧ j = 0 then (t : ℂ) else if i = 2 ∧ j = 0 then x else _) = if i = 2 ∧ j = 0 then (t : ℂ) else _
  by_cases h : i = 2 ∧ j = 0
  · rw [if_pos h, if_pos h]
  · rw [if_neg h, if_neg h, if_neg h]

theorem usim_norm (env : Env) (he : env.Exact) (t : ℝ) (x : ℂ) (fl : Fields 3 2) : Mode.compute_normalization env oneEigs { mode3 with scale := t } { usim x with fields := fl } = .ok (t * uK) := by
  unfold Mode.compute_normalization
  show (mode3.straight (fun (_ : Fin 3) (_ : Fin 2) => (10 / 9 : ℂ)) >>= _) = _
  rw [usim_straight]
  show (do
    let src ← Mode.insert_mode oneEigs { mode3 with scale := t } (usim x) (usim x).src
    (Sim.solve_fields env { usim x with src := src }).2.flux_probe "x" (1, 1) 1 : Except PyErr ℝ) = _
  rw [mode3_insert]
  show (Sim.solve_fields env { usim x with src := fun i j => if i = 2 ∧ j = 0 then (t : ℂ) else (usim x).src i j }).2.flux_probe "x" (1, 1) 1 = _
  rw [usim_src]
  exact usim_flux env he t fun _ => none

theorem usim_setup (env : Env) (he : env.Exact) (t : ℝ) (x : ℂ) (fl : Fields 3 2) : Mode.setup_src env oneEigs { mode3 with scale := t } ({ usim x with fields := fl }, none) =
    (.ok (), ({ usim t with fields := fl }, some (t * uK))) := by
  unfold Mode.setup_src
  simp only [usim_norm env he, mode3_insert]
  show ((Except.ok () : Except PyErr Unit), (({ usim x with fields := fl, src := fun i j => if i = 2 ∧ j = 0 then (t : ℂ) else (usim x).src i j } : Sim 3 2), some (t * uK))) = _
  rw [usim_src]
  rfl

/-- A Born solve without a given start leaves linear fields behind. -/
theorem born_leaves_fields {Nx Ny : ℕ} (env : Env) (s : Sim Nx Ny) (thr : ℝ) (n : ℕ) (r : NlResult Nx Ny) (s2 : Sim Nx Ny) (h : solve_fields_nl env s none .born thr n = (.ok r, s2)) :
    s2.fields s.pol.comp ≠ none := by
  have hsf : ∃ f E0 s1, startField env s none = (.ok E0, s1) ∧ s1.pol = s.pol ∧ s1.fields s.pol.comp = some f := by
    unfold startField
    cases hc : s.fields s.pol.comp with
    | some f => exact ⟨f, _, _, rfl, rfl, hc⟩
    | none =>
      obtain ⟨f, hf⟩ := Frame.solved_comp env s
      exact ⟨f, _, _, rfl, rfl, hf⟩
  obtain ⟨f, E0, s1, hs, hp, hf⟩ := hsf
  unfold solve_fields_nl born_solve at h
  simp only [hs] at h
  have hfr := Frame.bornLoop env thr n 0 s1 E0 (List.replicate n (.fin 0)) none
  generalize bornLoop env thr n 0 s1 E0 (List.replicate n (.fin 0)) none = R at h hfr
  obtain ⟨e | ⟨_ | ⟨a, b, c, d⟩, conv⟩, s3⟩ := R
  · cases (Prod.mk.inj h).1
  · cases (Prod.mk.inj h).1
  · simp only [Prod.mk.injEq] at h
    obtain ⟨-, rfl⟩ := h
    show s3.fields s.pol.comp ≠ none
    rcases hfr.fields with hh | ⟨hh, -⟩
    · rw [show s3.fields = s1.fields from hh, hf]
      simp
    · rw [hp, hf] at hh
      cases hh

/-- One pass of the scan over this waveguide with one probe at column 1. -/
theorem usim_pass (env : Env) (he : env.Exact) (t : ℝ) (ht : 0 < t) (x : ℂ) (fl : Fields 3 2) (w : ℝ)
    (hfl : ((fl .Ez = none) ∧ w = t * uK) ∨ ((∃ f, fl .Ez = some f) ∧ Sim.flux_probe { usim x with fields := fl } "x" (1, 1) 1 = .ok w)) :
    scanPowerPass env oneEigs [mode3] [fluxProbe "x" (1, 1) 1] .born { usim x with fields := fl } t = .ok (t * uK, [.fin (w / (t * uK))]) := by
  unfold scanPowerPass
  simp only [usim_setup env he]
  have hS : ∃ r s2, scanSolve env .born { usim t with fields := fl } = (.ok r, s2) := by
    obtain ⟨r, hr⟩ := (C28_returns env { usim t with fields := fl } (by intro n hn; cases hn) none 1e-10 100).1 (by norm_num)
    exact ⟨r, (scanSolve env .born { usim t with fields := fl }).2, Prod.ext hr rfl⟩
  obtain ⟨r, s2, hs2⟩ := hS
  have hflux : s2.flux_probe "x" (1, 1) 1 = .ok w := by
    obtain ⟨e1, e2, e3, A, fnl, fl', rfl, hfl'⟩ := nlShape_scan env .born _ r s2 (scanSolve_spec env .born _ r s2 hs2)
    have hne := born_leaves_fields env _ _ _ _ _ ((scanSolve_spec env .born _ r _ hs2).1 (by decide))
    rcases hfl with ⟨hn, rfl⟩ | ⟨⟨f, hf⟩, hw⟩
    · rcases hfl' with rfl | ⟨-, rfl⟩
      · exact absurd hn hne
      · exact usim_flux env he t fl
    · have hfe : fl' = fl := by
        rcases hfl' with rfl | ⟨hh, -⟩
        · rfl
        · rw [show fl .Ez = none from hh] at hf
          cases hf
      subst hfe
      exact hw
  rw [hs2]
  simp only [runProbes, fluxProbe, hflux, bind, Except.bind, pure, Except.pure]
  rw [PyFloat.div, if_pos (mul_pos ht uK_pos).ne']

theorem loop_const {Nx Ny : ℕ} (env : Env) (eg : Eigs) (modes : List Mode) (ps : List (Probe Nx Ny)) (solver : NlSolver) (s : Sim Nx Ny) (g : ℝ → ℝ) (x : PyFloat) (amps : List ℝ)
    (h : ∀ amp ∈ amps, scanPowerPass env eg modes ps solver s amp = .ok (g amp, [x])) (P0 : List ℝ) (t0 : List PyFloat) :
    scanPowerLoop env eg modes ps solver s amps (P0, [t0]) = .ok (P0 ++ amps.map g, [t0 ++ List.replicate amps.length x]) := by
  induction amps generalizing P0 t0 with
  | nil => simp [scanPowerLoop]
  | cons amp amps ih =>
    unfold scanPowerLoop
    rw [h amp List.mem_cons_self]
    show scanPowerLoop env eg modes ps solver s amps (P0 ++ [g amp], [t0 ++ [x]]) = _
    rw [ih fun a ha => h a (List.mem_cons_of_mem _ ha)]
    simp [List.replicate_succ]

theorem usim_scan (env : Env) (he : env.Exact) (fl : Fields 3 2) (v : ℝ) (Ns : ℕ) (a b : ℝ) (ha : 0 < a) (hb : 0 < b)
    (hfl : ((fl .Ez = none) ∧ v = 1) ∨ ((∃ f, fl .Ez = some f) ∧ Sim.flux_probe { usim 0 with fields := fl } "x" (1, 1) 1 = .ok 0 ∧ v = 0)) :
    scan_power env oneEigs { usim 0 with fields := fl } [mode3] (some [fluxProbe "x" (1, 1) 1]) Ns a b .born =
      .ok ((List.range Ns).map fun k => Spec.geometric a b Ns k * uK, [List.replicate Ns (.fin v)]) := by
  unfold scan_power
  simp only
  rw [if_pos ⟨ha, hb⟩]
  show scanPowerLoop _ _ _ _ _ _ _ ([], [[]]) = _
  rw [loop_const env oneEigs [mode3] [fluxProbe "x" (1, 1) 1] .born _ (fun t => t * uK) (.fin v)]
  · simp only [List.nil_append, List.map_map, List.length_map, List.length_range]
    rw [show (fun t => t * uK) ∘ logspace a b Ns = fun k => Spec.geometric a b Ns k * uK by funext k; simp only [Function.comp, logspace_eq a b ha hb]]
  · intro amp hamp
    obtain ⟨k, -, rfl⟩ := List.mem_map.1 hamp
    have hpos : 0 < logspace a b Ns k := by rw [logspace_eq a b ha hb]; exact geometric_pos a b ha hb Ns k
    have hne := (mul_pos hpos uK_pos).ne'
    rcases hfl with ⟨h, rfl⟩ | ⟨h, hw, rfl⟩
    · rw [usim_pass env he _ hpos 0 fl _ (Or.inl ⟨h, rfl⟩), div_self hne]
    · rw [usim_pass env he _ hpos 0 fl 0 (Or.inr ⟨h, hw⟩), zero_div]

/-- **C66, negation.** A uniform waveguide with no nonlinearity at all, one probe in the documented form: the scan reports the transmission 1 at every amplitude, but after a call of
`solve_fields()` on the same simulation it reports 0 at every amplitude.  (The recorded powers are proportional to the amplitude and not to its square: the simulation has a source off the
line of the mode, so the hypothesis of `C65_powers` is needed.) -/
theorem C66_false (env : Env) (he : env.Exact) : ∃ (s : Sim 3 2) (eg : Eigs) (md : Mode) (K : ℝ), 0 < K ∧ s.nonlinearity = [] ∧ ∀ (Ns : ℕ) (a b : ℝ), 0 < a → 0 < b →
    scan_power env eg s [md] (some [fluxProbe "x" (1, 1) 1]) Ns a b .born = .ok ((List.range Ns).map fun k => Spec.geometric a b Ns k * K, [List.replicate Ns (.fin 1)]) ∧
    scan_power env eg (s.solve_fields env).2 [md] (some [fluxProbe "x" (1, 1) 1]) Ns a b .born = .ok ((List.range Ns).map fun k => Spec.geometric a b Ns k * K, [List.replicate Ns (.fin 0)]) := by
  refine ⟨usim 0, oneEigs, mode3, uK, uK_pos, rfl, fun Ns a b ha hb => ⟨usim_scan env he (fun _ => none) 1 Ns a b ha hb (Or.inl ⟨rfl, rfl⟩), ?_⟩⟩
  have h0 := usim_flux env he 0 fun _ => none
  rw [zero_mul, Complex.ofReal_zero] at h0
  exact usim_scan env he (Sim.solve_fields env (usim 0)).2.fields 0 Ns a b ha hb (Or.inr ⟨⟨_, rfl⟩, h0, rfl⟩)

/-- `C65_measures` applies to that scan. -/
example (env : Env) (he : env.Exact) := C65_measures env oneEigs (usim 0) [mode3] [fluxProbe "x" (1, 1) 1] (by intro p hp s; rw [List.mem_singleton.1 hp]; rfl) 5 1 16 .born _ _
  (usim_scan env he (fun _ => none) 1 5 1 16 one_pos (by norm_num) (Or.inl ⟨rfl, rfl⟩))

/-- So does `C66_stale_false`. -/
example (env : Env) (he : env.Exact) := C66_stale_false env oneEigs (Sim.solve_fields env (usim 0)).2 _ (usim_solved env he 0 fun _ => none).1 [mode3] [("x", (1, 1), 1)] 5 (by norm_num) 1 16 .born
  _ _ (usim_scan env he (Sim.solve_fields env (usim 0)).2.fields 0 5 1 16 one_pos (by norm_num)
    (Or.inr ⟨⟨_, rfl⟩, by have h0 := usim_flux env he 0 fun _ => none; rw [zero_mul, Complex.ofReal_zero] at h0; exact h0, rfl⟩))

/-! ### A device with absorbing layers, on which the hypotheses of `C65_linear_device` and `C66_fresh_false` hold -/

theorem mode2_ok (s : Sim 4 3) (t : ℝ) (dest : Grid 4 3 ℂ) : ∃ g, Mode.insert_mode oneEigs { mode2 with scale := t } s dest = .ok g := by
  have hin : Sim.probeInds mode2.direction_normal mode2.center mode2.width = .ok (.x, (2, 3), (0, 2)) := by
    have h' : Sim.probeInds mode2.direction_normal mode2.center mode2.width =
        .ok (.x, (2, 2 + 1), (pyInt ((mode1.center.2 : ℝ) - mode1.width / 2), pyInt ((mode1.center.2 : ℝ) + mode1.width / 2))) := if_pos rfl
    rw [h', mode1_ends.1, mode1_ends.2]
    rfl
  have hrun : Mode.insert_mode oneEigs { mode2 with scale := t } s dest = placeMode .x dest (2, 3) (0, 2) (fun _ => 1 * (t : ℂ)) := by
    unfold Mode.insert_mode
    show (Sim.probeInds mode2.direction_normal mode2.center mode2.width >>= _) = _
    rw [hin]
    rfl
  have hsz : sliceLen 4 2 3 * sliceLen 3 0 2 = sliceLen 3 0 2 := by decide
  rw [hrun]
  unfold placeMode
  simp only
  rw [dif_pos hsz]
  exact ⟨_, rfl⟩

theorem mode2_norm (env : Env) (s : Sim 4 3) (t : ℝ) : ∃ W, Mode.compute_normalization env oneEigs { mode2 with scale := t } s = .ok W := by
  obtain ⟨m, eps, -, -, ⟨e, h, -⟩ | ⟨prof, src, _, W, -, -, -, h, -⟩⟩ := C54_normalisation_x_partial env oneEigs { mode2 with scale := t } rfl s 2 rfl 0 2 uniformFlux_span 2 3 rfl rfl
  · obtain ⟨g, hg⟩ := mode2_ok (s.set_eps_r eps) t s.src
    rw [h] at hg
    cases hg
  · exact ⟨W, h⟩

theorem mode2_pass (env : Env) (s : Sim 4 3) (hp : s.pol = .Ez) (nl : Bool) (hf : s.fields .Ez = none) (t : ℝ) :
    ∃ W x, scanPowerPass env oneEigs [mode2] [fluxProbe "x" (1, 1) 2 nl] .born s t = .ok (W, [x]) := by
  obtain ⟨g, hg⟩ := mode2_ok s t s.src
  obtain ⟨W, hW⟩ := mode2_norm env s t
  have hset : Mode.setup_src env oneEigs { mode2 with scale := t } (s, none) = (.ok (), ({ s with src := g }, some W)) := by
    unfold Mode.setup_src
    simp only [hW, hg]
  obtain ⟨r, s2, hs2⟩ : ∃ r s2, scanSolve env .born { s with src := g } = (.ok r, s2) := by
    obtain ⟨r, s', m, it, heq, -⟩ := C26_born_bookkeeping env { s with src := g } none 1e-10 100 (by norm_num)
    refine ⟨r, (scanSolve env .born { s with src := g }).2, Prod.ext ?_ rfl⟩
    show (solve_fields_nl env { s with src := g } none .born 1e-10 100).1 = _
    unfold solve_fields_nl
    simp only [heq]
  have hsp := scanSolve_spec env .born _ r s2 hs2
  have hne := born_leaves_fields env _ _ _ _ _ (hsp.1 (by decide))
  have hfx : ∃ Ez Hy, s2.pol = .Ez ∧ (if nl then s2.fields_nl else s2.fields) .Ez = some Ez ∧ (if nl then s2.fields_nl else s2.fields) .Hy = some Hy := by
    obtain ⟨e1, e2, e3, A, fnl, fl', rfl, hfl'⟩ := nlShape_scan env .born _ r s2 hsp
    have hst : ∀ (f : Fields 4 3) T, ∃ Ez Hy, Sim.store s.pol f T .Ez = some Ez ∧ Sim.store s.pol f T .Hy = some Hy := by
      intro f T
      rw [hp]
      exact ⟨_, _, rfl, rfl⟩
    cases nl with
    | true =>
      obtain ⟨Ez, Hy, k1, k2⟩ := hst fnl (r.Fx, r.Fy, r.Fz)
      exact ⟨Ez, Hy, hp, k1, k2⟩
    | false =>
      rcases hfl' with rfl | ⟨-, rfl⟩
      · exact absurd (show s.fields s.pol.comp = none by rw [hp]; exact hf) hne
      · obtain ⟨Ez, Hy, k1, k2⟩ := hst s.fields (Sim.in_plane { s with src := g } false s.eps_r (solver_direct env s.A (Sim.rhs { s with src := g })))
        exact ⟨Ez, Hy, hp, k1, k2⟩
  obtain ⟨Ez, Hy, h1, h2, h3⟩ := hfx
  obtain ⟨w, hflux⟩ : ∃ w, s2.flux_probe "x" (1, 1) 2 nl = .ok w :=
    ⟨_, (C51_flux_x_partial s2 nl 1 1 2 1 2 rfl 0 2 (Or.inl ⟨rfl, by norm_num⟩) uniformFlux_span _ rfl).1 Ez Hy h1 h2 h3⟩
  refine ⟨W, PyFloat.div w W, ?_⟩
  unfold scanPowerPass
  simp only [hset, hs2]
  unfold runProbes fluxProbe
  rw [hflux]
  rfl

theorem mode2_scan (env : Env) (s : Sim 4 3) (hp : s.pol = .Ez) (nl : Bool) (hf : s.fields .Ez = none) (Ns : ℕ) (a b : ℝ) (ha : 0 < a) (hb : 0 < b) :
    ∃ P T, scan_power env oneEigs s [mode2] (some [fluxProbe "x" (1, 1) 2 nl]) Ns a b .born = .ok (P, T) := by
  have hloop : ∀ amps P0 T0, ∃ P T, scanPowerLoop env oneEigs [mode2] [fluxProbe "x" (1, 1) 2 nl] .born s amps (P0, T0) = .ok (P, T) := by
    intro amps
    induction amps with
    | nil => exact fun P0 T0 => ⟨P0, T0, rfl⟩
    | cons amp amps ih =>
      intro P0 T0
      obtain ⟨W, x, h⟩ := mode2_pass env s hp nl hf amp
      unfold scanPowerLoop
      rw [h]
      exact ih _ _
  unfold scan_power
  simp only
  rw [if_pos ⟨ha, hb⟩]
  exact hloop _ _ _

/-- A 4 × 3 device with absorbing layers of one cell, without sources. -/
noncomputable def psim43 (eps : Grid 4 3 ℂ) : Sim 4 3 := fsim 1 eps fun _ _ => 0

theorem psim43_straight (eps : Grid 4 3 ℂ) (h1 : ∃ i j, 1 ≤ ‖eps i j‖) (e : Grid 4 3 ℂ) (nc : ℤ × ℤ) (h : mode2.straight eps = .ok (e, nc)) : ((psim43 eps).set_eps_r e).A.det ≠ 0 := by
  obtain ⟨e', hs, hx⟩ := straight_x mode2 rfl eps 2 (pyIndex_natCast (n := 4) 2) (by norm_num)
  rw [hs] at h
  cases h
  show (fsim 1 e fun _ _ => 0).A.det ≠ 0
  refine fsim_det (by norm_num) (by norm_num) 1 e _ fun i j => ?_
  have hm : 1 ≤ gridMax fun i j => ‖eps i j‖ := by
    obtain ⟨i, j, hij⟩ := h1
    exact (Finset.le_fold_max _).2 (Or.inr ⟨(i, j), Finset.mem_univ _, hij⟩)
  by_cases hg : Mode.gtOne (eps 2 j)
  · rw [(hx i j).1 hg, Complex.norm_real, Real.norm_eq_abs]
    exact hm.trans (le_abs_self _)
  · rw [(hx i j).2 hg, norm_one]

/-- `C65_linear_device` (and with it `C65_powers`) applies to every such device with `|eps_r| ≥ 1`, in particular to lossy ones. -/
example (env : Env) (he : env.Exact) (eps : Grid 4 3 ℂ) (h1 : ∀ i j, 1 ≤ ‖eps i j‖) : ∃ P T W1 src, scan_power env oneEigs (psim43 eps) [mode2] (some [fluxProbe "x" (1, 1) 2 true]) 5 1 16 .born = .ok (P, T) ∧
    Mode.compute_normalization env oneEigs { mode2 with scale := 1 } (psim43 eps) = .ok W1 ∧ Mode.insert_mode oneEigs { mode2 with scale := 1 } (psim43 eps) (psim43 eps).src = .ok src := by
  obtain ⟨P, T, h⟩ := mode2_scan env (psim43 eps) rfl true rfl 5 1 16 one_pos (by norm_num)
  obtain ⟨W1, src, hW, hs, -⟩ := C65_linear_device env he oneEigs (psim43 eps) (fsim_det (by norm_num) (by norm_num) 1 eps (fun _ _ => 0) h1) (by intro n hn; cases hn) mode2 [] (fun _ _ _ => rfl)
    (psim43_straight eps ⟨0, 0, h1 0 0⟩) [("x", (1, 1), 2)] 5 (by norm_num) 1 16 .born P T h
  exact ⟨P, T, W1, src, h, hW, hs⟩

/-- `C66_fresh_false` applies to the same devices with any nonlinearity. -/
example (env : Env) (he : env.Exact) (eps : Grid 4 3 ℂ) (h1 : ∀ i j, 1 ≤ ‖eps i j‖) (l : List (Nonlinearity 4 3)) :
    ∃ P T W1 w1, scan_power env oneEigs { psim43 eps with nonlinearity := l } [mode2] (some [fluxProbe "x" (1, 1) 2]) 5 1 16 .born = .ok (P, T) ∧ T[0]? = some (List.replicate 5 (PyFloat.div w1 W1)) := by
  obtain ⟨P, T, h⟩ := mode2_scan env { psim43 eps with nonlinearity := l } rfl false rfl 5 1 16 one_pos (by norm_num)
  obtain ⟨W1, src, -, -, hi⟩ := C66_fresh_false env he oneEigs { psim43 eps with nonlinearity := l } (fsim_det (by norm_num) (by norm_num) 1 eps (fun _ _ => 0) h1) rfl mode2 [] (fun _ _ _ => rfl)
    (psim43_straight eps ⟨0, 0, h1 0 0⟩) [("x", (1, 1), 2)] 5 (by norm_num) 1 16 .born P T h
  obtain ⟨t, w1, ht, -, rfl⟩ := hi 0 _ rfl
  exact ⟨P, T, W1, w1, h, ht⟩

end Angler
