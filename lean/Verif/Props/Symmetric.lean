import Verif.Lemmas.SymAscent
import Verif.Props.Filter

/-! # C93: optimisation keeps symmetries -/

namespace Angler

open Matrix

variable {Nx Ny : ℕ} {α : Type*}

/-! ## Specification -/

/-- The simulation of `o` holds the density `rho`, between 0 and 1, and the permittivity of this density. -/
structure Spec.Start (o : Opt Nx Ny) (rho : Grid Nx Ny ℝ) : Prop where
  box : Spec.Box rho
  density : o.simulation.rho = some (some rho)
  eps : o.simulation.eps_r = fun i j => ((rho2eps rho o.eps_m o.W o.eta o.beta i j : ℝ) : ℂ)

/-- What the two methods of `run` that the package implements itself do alike on `o` and `o'`. -/
def Spec.SameRuns {Mx My : ℕ} (env : Env) (T : Grid Nx Ny ℝ → Grid Mx My ℝ) (o : Opt Nx Ny) (o' : Opt Mx My) : Prop :=
  ∀ (n : ℕ) (s b1 b2 : ℝ) (calls : List Opt.LbfgsCall) (y y' : List ℝ),
    Spec.SameRun T n o o' (Opt.run env "gd" n s b1 b2 calls y o) (Opt.run env "gd" n s b1 b2 calls y' o') ∧
    (0 ≤ b1 ∧ b1 < 1 → 0 ≤ b2 ∧ b2 < 1 → Spec.SameRun T n o o' (Opt.run env "adam" n s b1 b2 calls y o) (Opt.run env "adam" n s b1 b2 calls y' o'))

/-- Runs of both methods, of any length, step size and decay rates, end at a density that `T` leaves as it is. -/
def Spec.Keeps (env : Env) (T : Grid Nx Ny ℝ → Grid Nx Ny ℝ) (o : Opt Nx Ny) : Prop :=
  ∀ (n : ℕ) (s b1 b2 : ℝ) (calls : List Opt.LbfgsCall) (y : List ℝ),
    (∃ o1 x, Opt.run env "gd" n s b1 b2 calls y o = (.ok (), o1) ∧ o1.simulation.rho = some (some x) ∧ T x = x) ∧
    (0 ≤ b1 ∧ b1 < 1 → 0 ≤ b2 ∧ b2 < 1 → ∃ o1 x, Opt.run env "adam" n s b1 b2 calls y o = (.ok (), o1) ∧ o1.simulation.rho = some (some x) ∧ T x = x)

theorem keeps_of_sameRuns {env : Env} {T : Grid Nx Ny ℝ → Grid Nx Ny ℝ} {o : Opt Nx Ny} (h : Spec.SameRuns env T o o) : Spec.Keeps env T o := by
  have key : ∀ {n : ℕ} {r : Except PyErr Unit × Opt Nx Ny}, Spec.SameRun T n o o r r → ∃ o1 x, r = (.ok (), o1) ∧ o1.simulation.rho = some (some x) ∧ T x = x := by
    rintro n ⟨r1, r2⟩ ⟨h1, -, ⟨x, hx, hTx⟩, -⟩
    refine ⟨r2, x, by rw [show r1 = .ok () from h1], hx, ?_⟩
    exact (Option.some.inj (Option.some.inj (hx.symm.trans hTx))).symm
  intro n s b1 b2 calls y
  obtain ⟨h1, h2⟩ := h n s b1 b2 calls y y
  exact ⟨key h1, fun hb1 hb2 => key (h2 hb1 hb2)⟩

/-! ## Exchanged axes -/

theorem turned_simAt {o : Opt Nx Ny} {o' : Opt Ny Nx} (h : Spec.Turned o.simulation o'.simulation) (hI : Spec.ImageOpt Spec.turn o o') (x : Grid Nx Ny ℝ) :
    Spec.Turned (Spec.simAt o x) (Spec.simAt o' (Spec.turn x)) :=
  { L0 := h.L0, dl := h.dl, omega := h.omega, NPML := h.NPML, pol := h.pol, src := h.src, nonlinearity := h.nonlinearity
    eps_r := by
      have e := relabel_rho2eps (σ := turnσ Nx Ny) (o := o) (o' := o') hI x
      funext i j
      show ((rho2eps (Spec.turn x) o'.eps_m o'.W o'.eta o'.beta i j : ℝ) : ℂ) = _
      exact congrArg _ (congrFun (congrFun e i) j)
    fields := by funext c; cases c <;> rfl
    fields_nl := by funext c; cases c <;> rfl }

/-- **C93, exchanged axes.** Runs on a device with its axes exchanged do the same as runs on the device. -/
theorem C93_turned (env : Env) (he : env.Exact) (o : Opt Nx Ny) (o' : Opt Ny Nx) (J : ObjFn Nx Ny) (J' : ObjFn Ny Nx) (args args' : List ObjArg) (h : Spec.EzProblem o J args)
    (h' : Spec.EzProblem o' J' args') (hS : Spec.Turned o.simulation o'.simulation) (hI : Spec.ImageOpt Spec.turn o o') (hJ : Spec.SameValue Spec.turn3 J args J' args')
    (rho : Grid Nx Ny ℝ) (hs : Spec.Start o rho) (hs' : o'.simulation.rho = some (some (Spec.turn rho))) : Spec.SameRuns env Spec.turn o o' := by
  have hR : ImageRun env (turnσ Nx Ny) Spec.turn3 o o' := ⟨hI, fun x hd =>
    (C72_linear env he _ _ (turned_simAt hS hI x) (h.valid.set_eps_r _) (h'.valid.set_eps_r _) hd false).1⟩
  exact fun n s b1 b2 calls y y' => hR.run he h h' hJ hS.eps_r rho hs.box hs.density hs' hs.eps n s b1 b2 calls y y'

/-! ## Motions -/

theorem moved_simAt {a b : ℕ} {o o' : Opt Nx Ny} (h : Spec.Moved a b o.simulation o'.simulation) (hI : Spec.ImageOpt (Spec.roll a b) o o') (x : Grid Nx Ny ℝ) :
    Spec.Moved a b (Spec.simAt o x) (Spec.simAt o' (Spec.roll a b x)) :=
  { L0 := h.L0, dl := h.dl, omega := h.omega, NPML := h.NPML, pol := h.pol, src := h.src, nonlinearity := h.nonlinearity
    eps_r := by
      have e := relabel_rho2eps (σ := rollσ Nx Ny a b) (o := o) (o' := o') hI x
      funext i j
      show ((rho2eps (Spec.roll a b x) o'.eps_m o'.W o'.eta o'.beta i j : ℝ) : ℂ) = _
      exact congrArg _ (congrFun (congrFun e i) j)
    fields := by funext c; rfl
    fields_nl := by funext c; rfl }

/-- **C93, motions.** Runs on a device moved along periodic axes do the same as runs on the device. -/
theorem C93_moved (env : Env) (he : env.Exact) (a b : ℕ) (o o' : Opt Nx Ny) (J J' : ObjFn Nx Ny) (args args' : List ObjArg) (h : Spec.EzProblem o J args)
    (h' : Spec.EzProblem o' J' args') (hS : Spec.Moved a b o.simulation o'.simulation) (hf : Spec.Free a b o.simulation.NPML) (hI : Spec.ImageOpt (Spec.roll a b) o o')
    (hJ : Spec.SameValue (Spec.roll3 a b) J args J' args') (rho : Grid Nx Ny ℝ) (hs : Spec.Start o rho) (hs' : o'.simulation.rho = some (some (Spec.roll a b rho))) :
    Spec.SameRuns env (Spec.roll a b) o o' := by
  have hR : ImageRun env (rollσ Nx Ny a b) (Spec.roll3 a b) o o' := ⟨hI, fun x hd =>
    (C73_linear env he a b _ _ (moved_simAt hS hI x) (h.valid.set_eps_r _) (h'.valid.set_eps_r _) hf hd false).1⟩
  exact fun n s b1 b2 calls y y' => hR.run he h h' hJ hS.eps_r rho hs.box hs.density hs' hs.eps n s b1 b2 calls y y'

/-! ## Mirror images -/

theorem mirrored_simAt {o o' : Opt Nx Ny} (h : Spec.Mirrored o.simulation o'.simulation) (hI : Spec.ImageOpt Spec.mirror o o') (x : Grid Nx Ny ℝ) :
    Spec.Mirrored (Spec.simAt o x) (Spec.simAt o' (Spec.mirror x)) :=
  { L0 := h.L0, dl := h.dl, omega := h.omega, NPML := h.NPML, pol := h.pol, src := h.src, nonlinearity := h.nonlinearity
    eps_r := by
      have e := relabel_rho2eps (σ := mirrorσ Nx Ny) (o := o) (o' := o') hI x
      funext i j
      show ((rho2eps (Spec.mirror x) o'.eps_m o'.W o'.eta o'.beta i j : ℝ) : ℂ) = _
      exact congrArg _ (congrFun (congrFun e i) j)
    fields := by funext c; cases c <;> rfl
    fields_nl := by funext c; cases c <;> rfl }

/-- **C93, mirror images.** Without an absorbing layer across `x`, runs on the mirror image of a device along `x` do the same as runs on the device. -/
theorem C93_mirrored (env : Env) (he : env.Exact) (o o' : Opt Nx Ny) (J J' : ObjFn Nx Ny) (args args' : List ObjArg) (h : Spec.EzProblem o J args)
    (h' : Spec.EzProblem o' J' args') (hS : Spec.Mirrored o.simulation o'.simulation) (hx : 1 < Nx) (hP : o.simulation.NPML.1 = 0) (hI : Spec.ImageOpt Spec.mirror o o')
    (hJ : Spec.SameValue Spec.mirror3 J args J' args') (rho : Grid Nx Ny ℝ) (hs : Spec.Start o rho) (hs' : o'.simulation.rho = some (some (Spec.mirror rho))) :
    Spec.SameRuns env Spec.mirror o o' := by
  have hR : ImageRun env (mirrorσ Nx Ny) Spec.mirror3 o o' := ⟨hI, fun x hd =>
    (C74_linear_partial env he _ _ (mirrored_simAt hS hI x) (h.valid.set_eps_r _) (h'.valid.set_eps_r _) hx hP hd false (Or.inl h.pol)).1⟩
  exact fun n s b1 b2 calls y y' => hR.run he h h' hJ hS.eps_r rho hs.box hs.density hs' hs.eps n s b1 b2 calls y y'

/-- The mirror image along `y`, as a renaming of cells. -/
abbrev mirrorYσ (Nx Ny : ℕ) : Fin Nx × Fin Ny ≃ Fin Nx × Fin Ny := Equiv.prodCongr (Equiv.refl _) ⟨Spec.opp, Spec.opp, opp_opp, opp_opp⟩

theorem mirroredY_simAt {o o' : Opt Nx Ny} (h : Spec.MirroredY o.simulation o'.simulation) (hI : Spec.ImageOpt Spec.mirrorY o o') (x : Grid Nx Ny ℝ) :
    Spec.MirroredY (Spec.simAt o x) (Spec.simAt o' (Spec.mirrorY x)) :=
  { L0 := h.L0, dl := h.dl, omega := h.omega, NPML := h.NPML, pol := h.pol, src := h.src, nonlinearity := h.nonlinearity
    eps_r := by
      have e := relabel_rho2eps (σ := mirrorYσ Nx Ny) (o := o) (o' := o') hI x
      funext i j
      show ((rho2eps (Spec.mirrorY x) o'.eps_m o'.W o'.eta o'.beta i j : ℝ) : ℂ) = _
      exact congrArg _ (congrFun (congrFun e i) j)
    fields := by funext c; cases c <;> rfl
    fields_nl := by funext c; cases c <;> rfl }

/-- **C93, mirror images along `y`.** -/
theorem C93_mirrored_y (env : Env) (he : env.Exact) (o o' : Opt Nx Ny) (J J' : ObjFn Nx Ny) (args args' : List ObjArg) (h : Spec.EzProblem o J args)
    (h' : Spec.EzProblem o' J' args') (hS : Spec.MirroredY o.simulation o'.simulation) (hy : 1 < Ny) (hP : o.simulation.NPML.2 = 0) (hI : Spec.ImageOpt Spec.mirrorY o o')
    (hJ : Spec.SameValue Spec.mirrorY3 J args J' args') (rho : Grid Nx Ny ℝ) (hs : Spec.Start o rho) (hs' : o'.simulation.rho = some (some (Spec.mirrorY rho))) :
    Spec.SameRuns env Spec.mirrorY o o' := by
  have hR : ImageRun env (mirrorYσ Nx Ny) Spec.mirrorY3 o o' := ⟨hI, fun x hd =>
    (C74_linear_y_partial env he _ _ (mirroredY_simAt hS hI x) (h.valid.set_eps_r _) (h'.valid.set_eps_r _) hy hP hd false (Or.inl h.pol)).1⟩
  exact fun n s b1 b2 calls y y' => hR.run he h h' hJ hS.eps_r rho hs.box hs.density hs' hs.eps n s b1 b2 calls y y'

/-! ## Symmetric problems -/

/-- **C93, symmetry is kept.** If the device, its source, the design region, the filter, the objective and the start are their own images in the diagonal, under a motion, or in a mirror, then so is
the density that a run of any length ends with. -/
theorem C93_kept (env : Env) (he : env.Exact) (o : Opt Nx Ny) (J : ObjFn Nx Ny) (args : List ObjArg) (h : Spec.EzProblem o J args) (rho : Grid Nx Ny ℝ) (hs : Spec.Start o rho) :
    (∀ a b, Spec.Moved a b o.simulation o.simulation → Spec.Free a b o.simulation.NPML → Spec.ImageOpt (Spec.roll a b) o o → Spec.SameValue (Spec.roll3 a b) J args J args →
      Spec.roll a b rho = rho → Spec.Keeps env (Spec.roll a b) o) ∧
    (Spec.Mirrored o.simulation o.simulation → 1 < Nx → o.simulation.NPML.1 = 0 → Spec.ImageOpt Spec.mirror o o → Spec.SameValue Spec.mirror3 J args J args →
      Spec.mirror rho = rho → Spec.Keeps env Spec.mirror o) ∧
    (Spec.MirroredY o.simulation o.simulation → 1 < Ny → o.simulation.NPML.2 = 0 → Spec.ImageOpt Spec.mirrorY o o → Spec.SameValue Spec.mirrorY3 J args J args →
      Spec.mirrorY rho = rho → Spec.Keeps env Spec.mirrorY o) :=
  ⟨fun a b hS hf hI hJ hr => keeps_of_sameRuns (C93_moved env he a b o o J J args args h h hS hf hI hJ rho hs (by rw [hr, hs.density])),
    fun hS hx hP hI hJ hr => keeps_of_sameRuns (C93_mirrored env he o o J J args args h h hS hx hP hI hJ rho hs (by rw [hr, hs.density])),
    fun hS hy hP hI hJ hr => keeps_of_sameRuns (C93_mirrored_y env he o o J J args args h h hS hy hP hI hJ rho hs (by rw [hr, hs.density]))⟩

/-- **C93, symmetry in the diagonal is kept.** -/
theorem C93_kept_turned {N : ℕ} (env : Env) (he : env.Exact) (o : Opt N N) (J : ObjFn N N) (args : List ObjArg) (h : Spec.EzProblem o J args) (rho : Grid N N ℝ) (hs : Spec.Start o rho)
    (hS : Spec.Turned o.simulation o.simulation) (hI : Spec.ImageOpt Spec.turn o o) (hJ : Spec.SameValue Spec.turn3 J args J args) (hr : Spec.turn rho = rho) : Spec.Keeps env Spec.turn o :=
  keeps_of_sameRuns (C93_turned env he o o J J args args h h hS hI hJ rho hs (by rw [hr, hs.density]))

/-! ## Filters -/

theorem cone_swap (R : ℕ) (a b : ℤ) : Spec.cone R a b = Spec.cone R b a := by
  unfold Spec.cone
  rw [add_comm]

theorem interior_swap {NPML : ℕ × ℕ} {R i j : ℕ} : Interior Ny Nx (NPML.2, NPML.1) R j i ↔ Interior Nx Ny NPML R i j := and_comm

/-- **C93, filters.** With absorbing layers on both axes the filter that `get_W` builds for exchanged axes is the filter with exchanged axes. -/
theorem C93_filter_turned (design : Grid Nx Ny ℝ) (NPML : ℕ × ℕ) (R : ℕ) (h1 : 1 ≤ NPML.1) (h2 : 1 ≤ NPML.2) (hR : 1 ≤ R) :
    ∃ W W', get_W Nx Ny design NPML R = .ok W ∧ get_W Ny Nx (Spec.turn design) (NPML.2, NPML.1) R = .ok W' ∧ ∀ x, rho2rhot (Spec.turn x) W' = Spec.turn (rho2rhot x W) := by
  obtain ⟨W, hW, hent⟩ := get_W_interior (Nx := Nx) (Ny := Ny) (NPML := NPML) (R := R) design h1 h2 hR
  obtain ⟨W', hW', hent'⟩ := get_W_interior (Nx := Ny) (Ny := Nx) (NPML := (NPML.2, NPML.1)) (R := R) (Spec.turn design) h2 h1 hR
  refine ⟨W, W', hW, hW', fun x => ?_⟩
  funext j i
  show (W' *ᵥ flatten (Spec.turn x)) (finProdFinEquiv (j, i)) = (W *ᵥ flatten x) (finProdFinEquiv (i, j))
  rw [mulVec, dotProduct, mulVec, dotProduct, sum_flat, sum_flat, Finset.sum_comm]
  refine Finset.sum_congr rfl fun i' _ => Finset.sum_congr rfl fun j' _ => ?_
  rw [flatten_pair, flatten_pair, hent, hent', cone_swap]
  simp only [interior_swap, Spec.turn, and_comm]

/-- **C93, the filter breaks the mirror symmetry of periodic problems.** With a periodic `y` axis and a radius of 2 pixels the filter of a uniform design region does not commute with the mirror
image along `y`. -/
theorem C93_filter_mirror_false (P : ℕ) (hP : 1 ≤ P) (hx : 2 * P + 6 < Nx) (hy : 2 < Ny) :
    ∃ W, get_W Nx Ny (fun _ _ => 1) (P, 0) 2 = .ok W ∧ ∃ x, rho2rhot (Spec.mirrorY x) W ≠ Spec.mirrorY (rho2rhot x W) := by
  let i : Fin Nx := ⟨P + 3, by omega⟩
  let i2 : Fin Nx := ⟨P + 5, by omega⟩
  let jl : Fin Ny := ⟨Ny - 1, by omega⟩
  let j0 : Fin Ny := ⟨0, by omega⟩
  let j1 : Fin Ny := ⟨1, by omega⟩
  obtain ⟨W, hW, hpos⟩ := C07_periodic_y_wrong (Nx := Nx) (Ny := Ny) (fun _ _ => 1) (P, 0) hP rfl i i2 jl j0 ⟨by simp only [i]; omega, by simp only [i]; omega⟩ rfl (by simp only [jl]; omega) rfl rfl
  refine ⟨W, hW, fun p q => if p = i2 ∧ q = j0 then 1 else 0, fun hc => ?_⟩
  have hent : ∀ (p : Fin Nx) (q : Fin Ny), rho2rhot (fun p q => if p = i2 ∧ q = j0 then (1 : ℝ) else 0) W p q = W (finProdFinEquiv (p, q)) (finProdFinEquiv (i2, j0)) := by
    intro p q
    rw [rho2rhot, unflatten, mulVec, dotProduct, sum_flat, Finset.sum_eq_single i2 (fun a _ ha => Finset.sum_eq_zero fun b _ => by rw [flatten_pair, if_neg (fun h => ha h.1), mul_zero])
      (fun h => absurd (Finset.mem_univ _) h), Finset.sum_eq_single j0 (fun b _ hb => by rw [flatten_pair, if_neg (fun h => hb h.2), mul_zero]) (fun h => absurd (Finset.mem_univ _) h),
      flatten_pair, if_pos ⟨rfl, rfl⟩, mul_one]
  have hj : Spec.opp j0 = j0 := Fin.ext (by simp [Spec.opp, j0])
  have hjl : Spec.opp jl = j1 := Fin.ext (by
    simp only [Spec.opp, jl, j1]
    rw [show Ny - (Ny - 1) = 1 by omega, Nat.mod_eq_of_lt (by omega)])
  have hm : Spec.mirrorY (fun (p : Fin Nx) (q : Fin Ny) => if p = i2 ∧ q = j0 then (1 : ℝ) else 0) = fun p q => if p = i2 ∧ q = j0 then 1 else 0 := by
    funext p q
    unfold Spec.mirrorY
    refine if_congr (and_congr_right fun _ => ⟨fun h => ?_, fun h => by rw [h, hj]⟩) rfl rfl
    rw [← opp_opp q, h, hj]
  have h1 := congrFun (congrFun hc i) jl
  rw [hm, hent] at h1
  have h2 : Spec.mirrorY (rho2rhot (fun p q => if p = i2 ∧ q = j0 then (1 : ℝ) else 0) W) i jl = W (finProdFinEquiv (i, j1)) (finProdFinEquiv (i2, j0)) := by
    unfold Spec.mirrorY
    rw [hjl, hent]
  rw [h2] at h1
  rw [h1] at hpos
  -- the entry found on the other side is zero
  unfold get_W at hW
  rcases hcs : csr_matrix (Nx * Ny) (getW_triples Nx Ny (P, 0) 2) with e | W0
  · rw [hcs] at hW; cases hW
  rw [hcs] at hW
  cases hW
  have hz : W0 (finProdFinEquiv (i, j1)) (finProdFinEquiv (i2, j0)) = 0 := by
    unfold csr_matrix at hcs
    split_ifs at hcs
    have hW0 := Except.ok.inj hcs
    rw [← hW0]
    refine List.sum_eq_zero fun v hv => ?_
    obtain ⟨p, hp, rfl⟩ := List.mem_map.1 hv
    refine if_neg fun hcc => ?_
    simp only [getW_triples, List.mem_flatMap] at hp
    obtain ⟨a, ha, b, hb, d, hdd, hp⟩ := hp
    have hb' := range_bounds hb
    rw [mem_getW_range hP] at ha
    obtain ⟨a, rfl, ha⟩ := ha
    unfold InteriorAxis at ha
    rw [mem_pyRange] at hdd
    push_cast at hdd
    rw [getW_inner_fix _ _ _ _ _ _ (wrap_inside (by omega) (by omega)), List.mem_flatMap] at hp
    obtain ⟨e, _, hp⟩ := hp
    rw [fdist_offset] at hp
    by_cases hv : (0 : ℝ) < (((2 : ℕ) : ℤ) : ℝ) - Real.sqrt ((d : ℝ) ^ 2 + (e : ℝ) ^ 2)
    · rw [if_pos hv, List.mem_singleton] at hp
      have hs := cone_support ((cone_pos_iff 2 d e).2 (by push_cast at hv ⊢; linarith))
      rw [abs_lt, abs_lt] at hs
      push_cast at hs
      rw [hp] at hcc
      simp only [pair_val] at hcc
      obtain ⟨hr, hcol⟩ := hcc
      have hN : (3 : ℤ) ≤ Ny := by omega
      have e1 : ((j1 : ℕ) : ℤ) = 1 := rfl
      have e0 : ((j0 : ℕ) : ℤ) = 0 := rfl
      have ei : ((i2 : ℕ) : ℤ) = (i : ℕ) + 2 := by simp only [i, i2]; push_cast; ring
      rw [e1] at hr
      rw [e0, ei] at hcol
      obtain ⟨hai, hb1⟩ : (a : ℤ) = (i : ℕ) ∧ b = 1 := by
        have h3 : ((a : ℤ) - (i : ℕ)) * Ny = 1 - b := by linear_combination hr
        have h4 : (a : ℤ) - (i : ℕ) = 0 := by
          by_contra hne
          rcases lt_or_gt_of_ne hne with hlt | hgt
          · nlinarith
          · nlinarith
        rw [h4, zero_mul] at h3
        omega
      have hw : wrap (b + e) Ny = b + e := wrap_inside (by omega) (by omega)
      rw [hw, hb1, hai] at hcol
      have h5 : (2 - d) * (Ny : ℤ) = 1 + e := by linear_combination -hcol
      nlinarith
    · rw [if_neg hv] at hp; simp at hp
  simp only [Matrix.add_apply, spdiag, Matrix.diagonal_mul, Matrix.mul_diagonal, Matrix.diagonal_apply, flatten_pair, EmbeddingLike.apply_eq_iff_eq, Prod.mk.injEq, hz] at hpos
  have hne : ¬ (i = i2 ∧ j1 = j0) := fun h => absurd (Fin.ext_iff.1 h.1) (by simp only [i, i2]; omega)
  rw [if_neg hne] at hpos
  simp at hpos

/-! ## Examples -/

/-- A filter of radius 3 on a 20 × 25 grid with different absorbing layers. -/
example (design : Grid 20 25 ℝ) := C93_filter_turned design (2, 4) 3 (by norm_num) (by norm_num) (by norm_num)

/-- A grid of 9 × 3 cells on which the filter is not symmetric. -/
example := C93_filter_mirror_false (Nx := 9) (Ny := 3) 1 le_rfl (by norm_num) (by norm_num)

theorem imageOpt_one {Mx My : ℕ} (σ : Fin Nx × Fin Ny ≃ Fin Mx × Fin My) (P : ℕ) (src : Grid Nx Ny ℂ) (src' : Grid Mx My ℂ) (ob : Objective Nx Ny) (ob' : Objective Mx My) (design : Grid Nx Ny ℝ) :
    Spec.ImageOpt (relabel σ) (gopt P src ob design 1) (gopt P src' ob' (relabel σ design) 1) where
  design := rfl
  filter x := by
    show unflatten ((1 : Mat (Mx * My) ℝ) *ᵥ flatten (relabel σ x)) = relabel σ (unflatten ((1 : Mat (Nx * Ny) ℝ) *ᵥ flatten x))
    rw [Matrix.one_mulVec, Matrix.one_mulVec, unflatten_flatten, unflatten_flatten]
  eps_m := rfl
  eta := rfl
  beta := rfl

/-- The intensity of the out-of-plane field has the same value for all images. -/
theorem sameValue_intensity {Mx My : ℕ} (σ : Fin Nx × Fin Ny ≃ Fin Mx × Fin My) (G : Triple Nx Ny → Triple Mx My) (hG : ∀ t, (G t).2.2 = relabel σ t.2.2) :
    Spec.SameValue G (intensityJ Nx Ny) [⟨.Ez, false, .linear_Ez⟩] (intensityJ Mx My) [⟨.Ez, false, .linear_Ez⟩] := by
  intro hl hl' t
  show ∑ i, ∑ j, (((G t).2.2 i j).re ^ 2 + ((G t).2.2 i j).im ^ 2) = ∑ i, ∑ j, ((t.2.2 i j).re ^ 2 + (t.2.2 i j).im ^ 2)
  rw [hG, ← Fintype.sum_prod_type' (f := fun i j => (relabel σ t.2.2 i j).re ^ 2 + (relabel σ t.2.2 i j).im ^ 2), ← Fintype.sum_prod_type' (f := fun i j => (t.2.2 i j).re ^ 2 + (t.2.2 i j).im ^ 2)]
  exact Equiv.sum_comp σ.symm (fun p : Fin Nx × Fin Ny => (t.2.2 p.1 p.2).re ^ 2 + (t.2.2 p.1 p.2).im ^ 2)

theorem gopt_start (P : ℕ) (src : Grid Nx Ny ℂ) (ob : Objective Nx Ny) (design : Grid Nx Ny ℝ) : Spec.Start (gopt P src ob design 1) fun _ _ => 0 where
  box := fun _ _ => ⟨le_rfl, zero_le_one⟩
  density := rfl
  eps := by rw [rho2eps_zero]; funext i j; simp [gopt, gsim]

/-- Maximising the intensity in a device without absorbing layers, with any source and any design region: the mirrored problem gives the mirrored design. -/
example (env : Env) (he : env.Exact) (hx : 1 < Nx) (hy : 1 < Ny) (src : Grid Nx Ny ℂ) (design : Grid Nx Ny ℝ) (hm : Spec.Mask design) :
    Spec.SameRuns env Spec.mirror (gopt 0 src (Objective.mk' (intensityJ Nx Ny) [⟨.Ez, false, .linear_Ez⟩]) design 1)
      (gopt 0 (Spec.mirror src) (Objective.mk' (intensityJ Nx Ny) [⟨.Ez, false, .linear_Ez⟩]) (Spec.mirror design) 1) :=
  C93_mirrored env he _ _ _ _ _ _ (gopt_problem hx hy 0 src _ intensityJ_autograd rfl design hm) (gopt_problem hx hy 0 (Spec.mirror src) _ intensityJ_autograd rfl _ fun i j => hm _ j)
    ⟨rfl, rfl, rfl, rfl, rfl, rfl, rfl, rfl, by funext c; cases c <;> rfl, by funext c; cases c <;> rfl⟩ hx rfl (imageOpt_one (mirrorσ Nx Ny) 0 src _ _ _ design)
    (sameValue_intensity (mirrorσ Nx Ny) Spec.mirror3 fun _ => rfl) _ (gopt_start 0 src _ design) rfl

/-- With absorbing layers of any thickness the problem with exchanged axes gives the design with exchanged axes. -/
example (env : Env) (he : env.Exact) (hx : 1 < Nx) (hy : 1 < Ny) (P : ℕ) (src : Grid Nx Ny ℂ) (design : Grid Nx Ny ℝ) (hm : Spec.Mask design) :
    Spec.SameRuns env Spec.turn (gopt P src (Objective.mk' (intensityJ Nx Ny) [⟨.Ez, false, .linear_Ez⟩]) design 1)
      (gopt P (Spec.turn src) (Objective.mk' (intensityJ Ny Nx) [⟨.Ez, false, .linear_Ez⟩]) (Spec.turn design) 1) :=
  C93_turned env he _ _ _ _ _ _ (gopt_problem hx hy P src _ intensityJ_autograd rfl design hm) (gopt_problem hy hx P (Spec.turn src) _ intensityJ_autograd rfl _ fun i j => hm j i)
    ⟨rfl, rfl, rfl, rfl, rfl, rfl, rfl, rfl, by funext c; cases c <;> rfl, by funext c; cases c <;> rfl⟩ (imageOpt_one (turnσ Nx Ny) P src _ _ _ design)
    (sameValue_intensity (turnσ Nx Ny) Spec.turn3 fun _ => rfl) _ (gopt_start P src _ design) rfl

/-- A symmetric source in the middle of a symmetric design region: the optimised design is symmetric, and for a uniform source and design region it is uniform. -/
example (env : Env) (he : env.Exact) (hx : 1 < Nx) (hy : 1 < Ny) :
    Spec.Keeps env Spec.mirrorY (gopt 0 (fun _ j => if (j : ℕ) = 0 then 1 else 0) (Objective.mk' (intensityJ Nx Ny) [⟨.Ez, false, .linear_Ez⟩]) (fun i _ => if (i : ℕ) = 1 then 1 else 0) 1) ∧
    ∀ a b, Spec.Keeps env (Spec.roll a b) (gopt 0 (fun _ _ => 1) (Objective.mk' (intensityJ Nx Ny) [⟨.Ez, false, .linear_Ez⟩]) (fun _ _ => 1) 1) := by
  have hopp : ∀ j : Fin Ny, ((Spec.opp j : ℕ) = 0) = ((j : ℕ) = 0) := by
    intro j
    have hj := j.2
    simp only [Spec.opp, eq_iff_iff]
    constructor
    · intro h
      by_contra hc
      rw [Nat.mod_eq_of_lt (by omega)] at h
      omega
    · intro h
      rw [h, Nat.sub_zero, Nat.mod_self]
  constructor
  · refine (C93_kept env he _ _ _ (gopt_problem hx hy 0 _ _ intensityJ_autograd rfl _ fun i j => ?_) _ (gopt_start 0 _ _ _)).2.2
      ⟨rfl, rfl, rfl, rfl, rfl, rfl, ?_, rfl, by funext c; cases c <;> rfl, by funext c; cases c <;> rfl⟩ hy rfl (imageOpt_one (mirrorYσ Nx Ny) 0 _ _ _ _ _)
      (sameValue_intensity (mirrorYσ Nx Ny) Spec.mirrorY3 fun _ => rfl) rfl
    · split_ifs
      · exact Or.inr rfl
      · exact Or.inl rfl
    · funext i j
      show (if (j : ℕ) = 0 then (1 : ℂ) else 0) = if (Spec.opp j : ℕ) = 0 then 1 else 0
      exact if_congr (Iff.of_eq (hopp j).symm) rfl rfl
  · intro a b
    exact (C93_kept env he _ _ _ (gopt_problem hx hy 0 _ _ intensityJ_autograd rfl _ fun i j => Or.inr rfl) _ (gopt_start 0 _ _ _)).1 a b
      ⟨rfl, rfl, rfl, rfl, rfl, rfl, rfl, rfl, by funext c; rfl, by funext c; rfl⟩ ⟨Or.inr rfl, Or.inr rfl⟩ (imageOpt_one (rollσ Nx Ny a b) 0 _ _ _ _ _)
      (sameValue_intensity (rollσ Nx Ny a b) (Spec.roll3 a b) fun _ => rfl) rfl

end Angler
