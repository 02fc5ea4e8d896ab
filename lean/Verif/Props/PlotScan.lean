import Verif.Model.Animation
import Verif.Props.ScanPower

/-! # C89, the plot of a power scan -/

namespace Angler

variable {Nx Ny : ℕ}

theorem curve_get (t : List PyFloat) (k : ℕ) : (t.zipIdx.map fun q => (q.2, q.1))[k]? = (t[k]?).map fun v => (k, v) := by
  rw [List.getElem?_map, List.getElem?_zipIdx, zero_add, Option.map_map]
  rfl

/-- **C89, `plot_transmissions` (partial).** Full claim: the plot of a power scan shows, per probe, the transmission against the input source amplitude.  Proved: one curve per probe, in the order of the
probes, and its `k`-th point has as height what the probe read at the `k`-th amplitude divided by the input power.  Missing: the abscissa, which is the number of the point
(`C89_plot_transmissions_false`). -/
theorem C89_plot_transmissions_partial (env : Env) (eg : Eigs) (s : Sim Nx Ny) (modes : List Mode) (ps : List (Probe Nx Ny)) (hps : ∀ p ∈ ps, ∀ s, (p s).2 = s) (Ns : ℕ) (a b : ℝ)
    (solver : NlSolver) (P : List ℝ) (T : List (List PyFloat)) (h : scan_power env eg s modes (some ps) Ns a b solver = .ok (P, T)) :
    (plot_transmissions T).length = ps.length ∧ (∀ c ∈ plot_transmissions T, c.length = Ns) ∧
    ∀ k < Ns, ∃ md rest s1 W r s2, modes = md :: rest ∧ setup_modes env eg [{ md with scale := Spec.geometric a b Ns k }] (s, none) = (.ok (), (s1, some W)) ∧
      Spec.ScanSolved env solver s1 r s2 ∧
      ∀ (i : ℕ) (p : Probe Nx Ny), ps[i]? = some p → ∃ c w, (plot_transmissions T)[i]? = some c ∧ (p s2).1 = .ok w ∧ c[k]? = some (k, PyFloat.div w W) := by
  obtain ⟨-, hT, hl, hk⟩ := C65_measures env eg s modes ps hps Ns a b solver P T h
  refine ⟨by rw [plot_transmissions, List.length_map, hT], fun c hc => ?_, fun k hkN => ?_⟩
  · obtain ⟨t, ht, rfl⟩ := List.mem_map.1 hc
    rw [List.length_map, List.length_zipIdx, hl t ht]
  · obtain ⟨md, rest, s1, W, r, s2, h1, h2, h3, -, h5⟩ := hk k hkN
    refine ⟨md, rest, s1, W, r, s2, h1, h2, h3, fun i p hp => ?_⟩
    obtain ⟨t, w, ht, hw, htk⟩ := h5 i p hp
    exact ⟨_, w, by rw [plot_transmissions, List.getElem?_map, ht]; rfl, hw, by rw [curve_get, htk]; rfl⟩

/-- **C89, negation for `plot_transmissions`.** Whatever the scan, no curve has the amplitudes as abscissae: the first point lies at 0 (and so is not on the logarithmic axis at all), the first amplitude is
`s_min > 0`. -/
theorem C89_plot_transmissions_false (env : Env) (eg : Eigs) (s : Sim Nx Ny) (modes : List Mode) (ps : List (Probe Nx Ny)) (hps : ∀ p ∈ ps, ∀ s, (p s).2 = s) (Ns : ℕ) (hN : 0 < Ns) (a b : ℝ)
    (ha : 0 < a) (solver : NlSolver) (P : List ℝ) (T : List (List PyFloat)) (h : scan_power env eg s modes (some ps) Ns a b solver = .ok (P, T)) :
    ∀ c ∈ plot_transmissions T, ∃ v, c[0]? = some (0, v) ∧ ((0 : ℕ) : ℝ) ≠ Spec.geometric a b Ns 0 := by
  obtain ⟨-, hT, hl, -⟩ := C65_measures env eg s modes ps hps Ns a b solver P T h
  intro c hc
  obtain ⟨t, ht, rfl⟩ := List.mem_map.1 hc
  have hlt : 0 < t.length := by rw [hl t ht]; exact hN
  refine ⟨t[0], by rw [curve_get, List.getElem?_eq_getElem hlt]; rfl, ?_⟩
  have : Spec.geometric a b Ns 0 = a := by
    unfold Spec.geometric
    split
    · rfl
    · rw [Nat.cast_zero, zero_div, Real.rpow_zero, mul_one]
  rw [this, Nat.cast_zero]
  exact ha.ne

/-- A scan of five amplitudes from 1 to 16 with one probe. -/
example (env : Env) (he : env.Exact) := C89_plot_transmissions_false env oneEigs (usim 0) [mode3] [fluxProbe "x" (1, 1) 1] (by intro p hp s; rw [List.mem_singleton.1 hp]; rfl) 5 (by norm_num) 1 16
  one_pos .born _ _ (usim_scan env he (fun _ => none) 1 5 1 16 one_pos (by norm_num) (Or.inl ⟨rfl, rfl⟩))

example : plot_transmissions [[.fin 7, .fin 8], [.fin 9, .nan]] = [[(0, .fin 7), (1, .fin 8)], [(0, .fin 9), (1, .nan)]] := rfl

end Angler
