import Verif.Model.Optimization
import Mathlib.Data.Finset.Fold

/-! # `angler/optimization.py`: optimisers, checks and scans -/

namespace Angler

open Matrix

/-- Python statement sequencing: an exception skips the rest. -/
def pySeq {α β σ : Type} (r : Except PyErr α × σ) (k : α → σ → Except PyErr β × σ) : Except PyErr β × σ :=
  match r with
  | (.error e, s) => (.error e, s)
  | (.ok a, s) => k a s

/-- `np.max` of an array of non-negative numbers (the code only takes maxima of `np.abs` results; the empty array, for which numpy raises, is not a grid). -/
noncomputable def gridMax {Nx Ny : ℕ} (g : Grid Nx Ny ℝ) : ℝ := Finset.fold max 0 (fun p : Fin Nx × Fin Ny => g p.1 p.2) Finset.univ

/-- `compute_index_shift()`, `simulation.py:343-350`.  `np.sqrt` of a negative number is `nan`: `nonFinite`. -/
noncomputable def Sim.compute_index_shift {Nx Ny : ℕ} (env : Env) (s : Sim Nx Ny) : Except PyErr (Grid Nx Ny ℝ) × Sim Nx Ny :=
  pySeq (s.solve_fields env) fun _ s1 =>
    pySeq (solve_fields_nl env s1) fun _ s2 =>
      open Classical in
      if ∃ i j, (s2.eps_r i j + s2.eps_nl i j).re < 0 ∨ (s2.eps_r i j).re < 0 then (.error .nonFinite, s2)
      else (.ok fun i j => |Real.sqrt (s2.eps_r i j + s2.eps_nl i j).re - Real.sqrt (s2.eps_r i j).re|, s2)

namespace Opt
variable {Nx Ny : ℕ}

/-- `self.compute_J(self.simulation)`. -/
noncomputable def J_self (env : Env) (o : Opt Nx Ny) : Except PyErr ℝ × Opt Nx Ny :=
  ((compute_J env o).1, (compute_J env o).2.1)

/-- `self.compute_dJ(self.simulation, self.design_region)`. -/
noncomputable def dJ_self (env : Env) (o : Opt Nx Ny) : Except PyErr (Grid Nx Ny ℝ) × Opt Nx Ny :=
  ((compute_dJ env o).1, (compute_dJ env o).2.1)

/-- `self.simulation.eps_r = rho2eps(rho, eps_m, W, eta, beta)` after `self.simulation.rho = rho` (`optimization.py:389-392, 430-434`). -/
noncomputable def putRho (o : Opt Nx Ny) (rho : Grid Nx Ny ℝ) : Opt Nx Ny :=
  { o with simulation := { (o.simulation.set_eps_r fun i j => ((rho2eps rho o.eps_m o.W o.eta o.beta i j : ℝ) : ℂ)) with rho := some (some rho) } }

/-- The positions `k` of the flattened grid with `des_vec[k] == 1`, in order (numpy boolean mask, `optimization.py:387,401`). -/
noncomputable def desIdx (o : Opt Nx Ny) : List (Fin (Nx * Ny)) :=
  open Classical in (List.finRange (Nx * Ny)).filter fun k => flatten o.design_region k = 1

/-- `_get_design_region(spatial_array)`, `optimization.py:396-402`. -/
noncomputable def get_design_region (o : Opt Nx Ny) (g : Grid Nx Ny ℝ) : List ℝ := (desIdx o).map (flatten g)

/-- Boolean mask assignment `v[mask] = x`: the entries of `x` go to the masked positions in order. -/
def maskAssign {n : ℕ} : List (Fin n) → List ℝ → Vec n ℝ → Vec n ℝ
  | k :: ks, a :: as, v => maskAssign ks as (Function.update v k a)
  | _, _, v => v

/-- `np.linalg.norm` of a vector. -/
noncomputable def listNorm (x : List ℝ) : ℝ := Real.sqrt ((x.map fun a => a ^ 2).sum)

/-- `x - y` of two one-dimensional arrays, with numpy's broadcasting: an array with one entry is combined with every entry of the other; other pairs of different lengths do not fit. -/
noncomputable def bcastSub (x y : List ℝ) : Option (List ℝ) :=
  if x.length = y.length then some (List.zipWith (fun a b => a - b) x y)
  else
    match x, y with
    | [a], y => some (y.map fun b => a - b)
    | x, [b] => some (x.map fun a => a - b)
    | _, _ => none

/-- The values that `v[mask] = x` writes to the `n` masked positions: a single value is written to all of them, other wrong lengths do not fit. -/
def maskValues (n : ℕ) (x : List ℝ) : Option (List ℝ) :=
  if x.length = n then some x
  else
    match x with
    | [a] => some (List.replicate n a)
    | _ => none

/-- `_set_design_region(x)`, `optimization.py:377-394`.  A vector that does not fit raises `ValueError`, in `x - rho_vec[mask]` (line 386) or, if there is one design pixel, in the assignment
(line 387).  `rho` absent: `AttributeError`; `rho = None`: the mask does not fit the reshaped object array, `IndexError` (on grids with more than one cell).
`fields_current = False` is executed at the end, so not after a raise. -/
noncomputable def set_design_region (o : Opt Nx Ny) (x : List ℝ) : Except PyErr Unit × Opt Nx Ny :=
  match o.simulation.rho with
  | none => (.error .attributeError, o)
  | some none => (.error .indexError, o)
  | some (some rho) =>
    let cur := get_design_region o rho
    match bcastSub x cur with
    | none => (.error .valueError, o)
    | some d =>
      open Classical in
      if (PyFloat.div (listNorm d) (listNorm x)).Gt 1e-10 then
        match maskValues cur.length x with
        | none => (.error .valueError, o)
        | some v => (.ok (), { putRho o (unflatten (maskAssign (desIdx o) v (flatten rho))) with fields_current := false })
      else (.ok (), { o with fields_current := false })

/-- `_set_source_amplitude(epsilon=1e-2, N=1)`, `optimization.py:404-425` (always called with the defaults).  A zero maximal shift makes `ratio` infinite or `nan`, a negative
ratio makes the square root `nan`: `nonFinite`. -/
noncomputable def set_source_amplitude (env : Env) (o : Opt Nx Ny) : Except PyErr Unit × Opt Nx Ny :=
  let o0 := { o with src_amplitudes := o.src_amplitudes ++ [gridMax fun i j => ‖o.simulation.src i j‖] }
  match o.max_ind_shift with
  | none => (.ok (), { o0 with fields_current := false })
  | some m =>
    match o0.simulation.compute_index_shift env with
    | (.error e, s1) => (.error e, { o0 with simulation := s1 })
    | (.ok dn, s1) =>
      let max_dn := gridMax dn
      open Classical in
      if max_dn = 0 ∨ m / max_dn < 0 then (.error .nonFinite, { o0 with simulation := s1 })
      else
        let ratio := m / max_dn
        (.ok (), { o0 with simulation := { s1 with src := fun i j => s1.src i j * ((Real.sqrt ratio - 1e-2 : ℝ) : ℂ) }, fields_current := false })

/-- The clipping of `optimization.py:431-432` (first the entries below 0, then those above 1). -/
noncomputable def clip01 (x : ℝ) : ℝ := open Classical in
  let y := if x < 0 then 0 else x
  if 1 < y then 1 else y

/-- `_update_rho(grad, step_size)`, `optimization.py:427-436`.  `None + array` is a `TypeError`. -/
noncomputable def update_rho (o : Opt Nx Ny) (grad : Grid Nx Ny ℝ) (step_size : ℝ) : Except PyErr Unit × Opt Nx Ny :=
  match o.simulation.rho with
  | none => (.error .attributeError, o)
  | some none => (.error .typeError, o)
  | some (some rho) =>
    (.ok (), { putRho o (fun i j => clip01 (rho i j + o.design_region i j * step_size * grad i j)) with fields_current := false })

/-- One pass of the loop in `_run_GD`, `optimization.py:220-235` (progress bar and plotting dropped). -/
noncomputable def stepGD (env : Env) (step_size : ℝ) (o : Opt Nx Ny) : Except PyErr Unit × Opt Nx Ny :=
  pySeq (J_self env o) fun J o1 =>
    pySeq (set_source_amplitude env { o1 with objfn_list := o1.objfn_list ++ [J] }) fun _ o2 =>
      pySeq (dJ_self env o2) fun grad o3 => update_rho o3 grad step_size

/-- `_run_GD(step_size)`, `optimization.py:215-235`. -/
noncomputable def run_GD (env : Env) (step_size : ℝ) : (Nsteps : ℕ) → Opt Nx Ny → Except PyErr Unit × Opt Nx Ny
  | 0, o => (.ok (), o)
  | n + 1, o => pySeq (stepGD env step_size o) fun _ o1 => run_GD env step_size n o1

/-- The moments of Adam. -/
abbrev Moments (Nx Ny : ℕ) := Grid Nx Ny ℝ × Grid Nx Ny ℝ

open Classical in
/-- `_step_adam(gradient, mopt_old, vopt_old, iteration, beta1, beta2, epsilon=1e-8)`, `optimization.py:438-447`: the step and the new moments.  A zero bias correction or
a negative corrected second moment gives `inf`/`nan`: `nonFinite`. -/
noncomputable def step_adam (grad : Grid Nx Ny ℝ) (mv : Moments Nx Ny) (iteration : ℕ) (beta1 beta2 : ℝ) : Except PyErr (Grid Nx Ny ℝ × Moments Nx Ny) :=
  let mopt : Grid Nx Ny ℝ := fun i j => beta1 * mv.1 i j + (1 - beta1) * grad i j
  let c1 := 1 - beta1 ^ (iteration + 1)
  let vopt : Grid Nx Ny ℝ := fun i j => beta2 * mv.2 i j + (1 - beta2) * grad i j ^ 2
  let c2 := 1 - beta2 ^ (iteration + 1)
  if c1 = 0 ∨ c2 = 0 ∨ ∃ i j, vopt i j / c2 < 0 then .error .nonFinite
  else .ok (fun i j => mopt i j / c1 / (Real.sqrt (vopt i j / c2) + 1e-8), mopt, vopt)

/-- One pass of the loop in `_run_ADAM`, `optimization.py:241-262`; at iteration 0 the moments are reset to zero arrays (lines 252-254). -/
noncomputable def stepADAM (env : Env) (step_size beta1 beta2 : ℝ) (iteration : ℕ) (mv : Moments Nx Ny) (o : Opt Nx Ny) :
    Except PyErr (Moments Nx Ny) × Opt Nx Ny :=
  pySeq (J_self env o) fun J o1 =>
    pySeq (set_source_amplitude env { o1 with objfn_list := o1.objfn_list ++ [J] }) fun _ o2 =>
      pySeq (dJ_self env o2) fun grad o3 =>
        match step_adam grad (if iteration = 0 then (fun _ _ => 0, fun _ _ => 0) else mv) iteration beta1 beta2 with
        | .error e => (.error e, o3)
        | .ok (g, mv') => pySeq (update_rho o3 g step_size) fun _ o4 => (.ok mv', o4)

/-- The loop of `_run_ADAM`: `n` remaining passes. -/
noncomputable def loopADAM (env : Env) (step_size beta1 beta2 : ℝ) : (n iteration : ℕ) → Moments Nx Ny → Opt Nx Ny → Except PyErr Unit × Opt Nx Ny
  | 0, _, _, o => (.ok (), o)
  | n + 1, it, mv, o => pySeq (stepADAM env step_size beta1 beta2 it mv o) fun mv' o1 => loopADAM env step_size beta1 beta2 n (it + 1) mv' o1

/-- `_run_ADAM(step_size, beta1, beta2)`, `optimization.py:237-262`. -/
noncomputable def run_ADAM (env : Env) (step_size beta1 beta2 : ℝ) (Nsteps : ℕ) (o : Opt Nx Ny) : Except PyErr Unit × Opt Nx Ny :=
  loopADAM env step_size beta1 beta2 Nsteps 0 (fun _ _ => 0, fun _ _ => 0) o

/-- What `fmin_l_bfgs_b` does with the functions it was given (`optimization.py:312-318`): a finite sequence of calls of the objective, the gradient and the callback. -/
inductive LbfgsCall
  | objfn (x : List ℝ)
  | grad (x : List ℝ)
  | callback (x : List ℝ)

/-- The nested functions `_objfn`, `_grad`, `_update_iter_count` of `_run_LBFGS`, `optimization.py:269-303`; the value handed back to scipy is returned for the first two. -/
noncomputable def lbfgsCall (env : Env) (o : Opt Nx Ny) : LbfgsCall → Except PyErr (List ℝ) × Opt Nx Ny
  | .objfn x => pySeq (set_design_region o x) fun _ o1 => pySeq (J_self env o1) fun J o2 => (.ok [-J], o2)
  | .grad x => pySeq (set_design_region o x) fun _ o1 => pySeq (dJ_self env o1) fun g o2 => (.ok ((get_design_region o2 g).map fun a => -a), o2)
  | .callback x =>
    pySeq (J_self env o) fun J o1 =>
      pySeq (set_design_region { o1 with objfn_list := o1.objfn_list ++ [J] } x) fun _ o2 =>
        pySeq (set_source_amplitude env o2) fun _ o3 => (.ok [], o3)

/-- The calls in order, until one raises. -/
noncomputable def lbfgsCalls (env : Env) : List LbfgsCall → Opt Nx Ny → Except PyErr Unit × Opt Nx Ny
  | [], o => (.ok (), o)
  | c :: cs, o => pySeq (lbfgsCall env o c) fun _ o1 => lbfgsCalls env cs o1

/-- `_run_LBFGS()`, `optimization.py:264-322`, for a given behaviour `calls`, `rho_final` of `fmin_l_bfgs_b`.  Before it starts, `rho` is read (lines 308-310). -/
noncomputable def run_LBFGS (env : Env) (calls : List LbfgsCall) (rho_final : List ℝ) (o : Opt Nx Ny) : Except PyErr Unit × Opt Nx Ny :=
  pySeq (lbfgsCalls env calls o) fun _ o1 => set_design_region o1 rho_final

/-- `run(method, Nsteps, step_size, beta1, beta2)`, `optimization.py:184-213`.  With `rho = None` the call `eps2rho(eps)` lacks its argument `eps_m`: `TypeError`.
`String.toLower` (ASCII) agrees with Python's `lower()` on the comparisons made here. -/
noncomputable def run (env : Env) (method : String) (Nsteps : ℕ) (step_size beta1 beta2 : ℝ) (calls : List LbfgsCall) (rho_final : List ℝ) (o : Opt Nx Ny) :
    Except PyErr Unit × Opt Nx Ny :=
  match o.simulation.rho with
  | none => (.error .attributeError, o)
  | some none => (.error .typeError, o)
  | some (some _) =>
    let o1 := { o with fields_current := false }
    if method.toLower = "lbfgs" then run_LBFGS env calls rho_final o1
    else if method.toLower = "gd" then run_GD env step_size Nsteps o1
    else if method.toLower = "adam" then run_ADAM env step_size beta1 beta2 Nsteps o1
    else (.error .valueError, o1)

/-- The design pixels as `np.where(self.design_region == 1)` lists them (`optimization.py:121`). -/
noncomputable def desPts (o : Opt Nx Ny) : List (Fin Nx × Fin Ny) := (desIdx o).map fun k => finProdFinEquiv.symm k

/-- The perturbed density, `optimization.py:126-127`. -/
def bumpRho (rho : Grid Nx Ny ℝ) (pt : Fin Nx × Fin Ny) (d : ℝ) : Grid Nx Ny ℝ := fun i j => if (i, j) = pt then rho i j + d else rho i j

/-- One pass of the loop of `check_deriv`, `optimization.py:118-148`: works on a deep copy of the simulation; `pick` is the result of `np.random.randint(len(x))`
(`ValueError` when the design region is empty).  Returns the numerical gradient and the analytical one at that point. -/
noncomputable def checkPt (env : Env) (grad_avm : Grid Nx Ny ℝ) (J_orig d_rho : ℝ) (pick : ℕ) (o : Opt Nx Ny) : Except PyErr (ℝ × ℝ) × Opt Nx Ny :=
  match (desPts o)[pick]? with
  | none => (.error .valueError, o)
  | some pt =>
    match o.simulation.rho with
    | some (some rho) =>
      let rho_new := bumpRho rho pt d_rho
      let sim_new : Sim Nx Ny := ({ o.simulation with rho := some (some rho_new) } : Sim Nx Ny).set_eps_r fun i j => ((rho2eps rho_new o.eps_m o.W o.eta o.beta i j : ℝ) : ℂ)
      match compute_J env { o with fields_current := false } (some sim_new) with
      | (.error e, r) => (.error e, r.1)
      | (.ok J_new, r) => open Classical in if d_rho = 0 then (.error .nonFinite, r.1) else (.ok (grad_avm pt.1 pt.2, (J_new - J_orig) / d_rho), r.1)
    | _ => (.error .typeError, o)

/-- The loop over the picked points. -/
noncomputable def checkPts (env : Env) (grad_avm : Grid Nx Ny ℝ) (J_orig d_rho : ℝ) : List ℕ → Opt Nx Ny → Except PyErr (List (ℝ × ℝ)) × Opt Nx Ny
  | [], o => (.ok [], o)
  | p :: ps, o => pySeq (checkPt env grad_avm J_orig d_rho p o) fun r o1 => pySeq (checkPts env grad_avm J_orig d_rho ps o1) fun rs o2 => (.ok (r :: rs), o2)

/-- `check_deriv(Npts, d_rho)`, `optimization.py:104-150`; `picks` are the random draws (as many as `Npts`). -/
noncomputable def check_deriv (env : Env) (picks : List ℕ) (d_rho : ℝ) (o : Opt Nx Ny) : Except PyErr (List (ℝ × ℝ)) × Opt Nx Ny :=
  match o.simulation.rho with
  | some (some rho) =>
    let o1 := { putRho o rho with fields_current := false }
    pySeq (dJ_self env o1) fun grad_avm o2 => pySeq (J_self env o2) fun J_orig o3 => checkPts env grad_avm J_orig d_rho picks o3
  | _ => (.error .attributeError, { o with fields_current := false })

/-- `np.linspace(a, b, N)[k]`. -/
noncomputable def linspace (a b : ℝ) (N k : ℕ) : ℝ := if N ≤ 1 then a else a + k * ((b - a) / ((N : ℝ) - 1))

/-- `freqs`, `optimization.py:473-475`. -/
noncomputable def scanFreqs (omega df : ℝ) (Nf : ℕ) : List ℝ :=
  (List.range Nf).map fun k => 1 / 2 / Real.pi * linspace (omega - omega * df / 2) (omega + omega * df / 2) Nf k

/-- One pass of `scan_frequency`, `optimization.py:482-497`. -/
noncomputable def scanOne (env : Env) (f : ℝ) (o : Opt Nx Ny) : Except PyErr ℝ × Opt Nx Ny :=
  let sim_new := ({ o.simulation with omega := 2 * Real.pi * f } : Sim Nx Ny).set_eps_r o.simulation.eps_r
  match compute_J env { o with fields_current := false } (some sim_new) with
  | (.error e, r) => (.error e, r.1)
  | (.ok J, r) => (.ok J, r.1)

/-- The loop over frequencies. -/
noncomputable def scanLoop (env : Env) : List ℝ → Opt Nx Ny → Except PyErr (List ℝ) × Opt Nx Ny
  | [], o => (.ok [], o)
  | f :: fs, o => pySeq (scanOne env f o) fun J o1 => pySeq (scanLoop env fs o1) fun Js o2 => (.ok (J :: Js), o2)

/-- `for i in …: if not above_HM[i]: break; num_above_HM += 1`, `optimization.py:506-513`: the number of leading indices that are above. -/
def countRun (above : ℕ → Bool) : List ℕ → ℕ
  | [] => 0
  | i :: l => if above i then 1 + countRun above l else 0

open Classical in
/-- The post-processing of `scan_frequency`, `optimization.py:499-517`: `HM`, `above_HM`, the two counting loops and the frequency spacing.
`np.max` of an empty list raises `ValueError`; `freqs[1]` with one frequency raises `IndexError`. -/
noncomputable def fwhm (freqs objs : List ℝ) (Nf : ℕ) : Except PyErr ℝ :=
  match objs.max? with
  | none => .error .valueError
  | some m =>
    let HM := m / 2
    let above : ℕ → Bool := fun i => decide (HM < objs.getD i 0)
    let up := countRun above ((List.range (Nf - Nf / 2)).map fun k => Nf / 2 + k)
    let down := countRun above ((List.range (Nf / 2)).map fun k => Nf / 2 - 1 - k)
    match freqs[0]?, freqs[1]? with
    | some f0, some f1 => .ok ((up + down : ℕ) * (f1 - f0))
    | _, _ => .error .indexError

/-- `scan_frequency(Nf, df)`, `optimization.py:469-519`. -/
noncomputable def scan_frequency (env : Env) (Nf : ℕ) (df : ℝ) (o : Opt Nx Ny) : Except PyErr (List ℝ × List ℝ × ℝ) × Opt Nx Ny :=
  let freqs := scanFreqs o.simulation.omega df Nf
  pySeq (scanLoop env freqs o) fun objs o1 =>
    match fwhm freqs objs Nf with
    | .error e => (.error e, o1)
    | .ok w => (.ok (freqs, objs, w), o1)

end Opt

end Angler
