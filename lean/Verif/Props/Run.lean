import Verif.Lemmas.Files
import Verif.Props.Params
import Verif.Model.Launcher
import Mathlib.Analysis.SpecialFunctions.Log.Base
/-
C57 (no effect), C60-C69, C71: output files and whole runs.

The statements about runs speak of a *history* (`History`: the initial data and the repeated `time_step`) and of what is *derived*
from it (`Derived`: density, tables, printed numbers); `C69_history_exists` and `C69_history_unique` show that there is exactly one
of each for admissible parameters, so nothing is assumed.
-/
namespace SFK
open Scalar

section
variable {α : Type} [Scalar α] {E : Env α} {P : ParamRec α} {g : Grid α} {io : IOEnv α} {F Q A B D : Nat → List α}
  {tF tD : Nat → List (List Char)} {res tv : Nat → α}

/-! ### the history of a run -/

/-- **C69.** For admissible parameters the grid is built, the history exists, and so does everything derived from it. -/
theorem C69_history_exists (hV : Valid E P) (io : IOEnv α) (M N : Nat → Junk (Cx α)) :
    ∃ g, BuiltGrid E P g ∧ ∃ F Q A B, History P g M F Q A B ∧ ∃ D tF tD res tv, Derived P g io N F Q A B D tF tD res tv := by
  obtain ⟨g, _, hS⟩ := hV.setup
  obtain ⟨F, Q, A, B, hH⟩ := exists_history hV hS M
  exact ⟨g, hS, F, Q, A, B, hH, exists_derived hS io N hH⟩

/-- **C69.** The history is unique: initial data and repeated time steps determine the state after every number of steps. -/
theorem C69_history_unique (hS : BuiltGrid E P g) {F' Q' A' B' : Nat → List α} {M : Nat → Junk (Cx α)} (h : History P g M F Q A B) (h' : History P g M F' Q' A' B') :
    F = F' ∧ Q = Q' ∧ A = A' ∧ B = B' := by
  let J : Junk (Cx α) := fun _ _ => ⟨lit 0, lit 0⟩
  obtain ⟨e, _, he⟩ := Eom.Of.existsB hS
  have key : ∀ k, F k = F' k ∧ Q k = Q' k := by
    intro k
    induction k with
    | zero =>
      have h1 := (h.start J).symm.trans (h'.start J)
      injection h1 with h1
      injection h1 with h1 h2
      exact ⟨h1, h2⟩
    | succ k ih =>
      let f : Field α := ⟨"f", F k, F k, F k, F k, P.nx * P.nlat * P.nphi⟩
      let p : Field α := ⟨"p", Q k, Q k, Q k, Q k, P.nx * P.nlat * P.nphi⟩
      have l1 := (h.len k).1
      have l2 := (h.len k).2
      have hf : f.Sized (P.nx * P.nlat * P.nphi) := ⟨l1, l1, l1, l1, rfl⟩
      have hp : p.Sized (P.nx * P.nlat * P.nphi) := ⟨l2, l2, l2, l2, rfl⟩
      obtain ⟨e1, f1, p1, a1, a2, a3, _⟩ := h.step k e f p he hf hp rfl rfl
      obtain ⟨e2, f2, p2, b1, b2, b3, _⟩ := h'.step k e f p he hf hp ih.1 ih.2
      have c := a1.symm.trans b1
      injection c with c
      injection c with c1 c2
      injection c2 with c2 c3
      exact ⟨by rw [← a2, ← b2, c2], by rw [← a3, ← b3, c3]⟩
  have e1 : F = F' := funext fun k => (key k).1
  have e2 : Q = Q' := funext fun k => (key k).2
  refine ⟨e1, e2, funext fun k => ?_, funext fun k => ?_⟩
  · have := (h.filtF k J).symm.trans ((congrArg _ (key k).1).trans (h'.filtF k J))
    injection this
  · have := (h.filtQ k J).symm.trans ((congrArg _ (key k).2).trans (h'.filtQ k J))
    injection this

/-- **C69.** The loop of main.cpp follows the history: after any number `n` of iterations the current fields are the state after exactly
`n` time steps (so nothing is lost or done twice between two steps), and the next iteration starts from it. -/
theorem C69_loop_follows_history (hV : Valid E P) (hS : BuiltGrid E P g) (J : Nat → Junk (Cx α))
    (hH : History P g (fun k => (J (k + 1)).sub 0) F Q A B) (hts : 1 ≤ P.t_step_save) (dir : List Char) (io : IOEnv α) {s : Main.Vars α} (h_idx : s.save_indx = 0) (h_of : Eom.Of g P s.e)
    (h_f : s.f.Sized (P.nx * P.nlat * P.nphi)) (h_p : s.p.Sized (P.nx * P.nlat * P.nphi)) (h_fn : s.f.n = F 0) (h_pn : s.p.n = Q 0)
    (h_name : s.f.name = "f") (h_rho : s.rho.length = P.nx * P.nlat * P.nphi) {n : Nat} (hn : n < P.nt) :
    ∃ es s', (Prog.forRange 1 (n + 1) s fun itm s => Main.iter io P g (J itm) dir itm s) = ⟨es, .ok s'⟩ ∧
      s'.f.n = F n ∧ s'.p.n = Q n ∧ s'.f.name = "f" ∧ s'.save_indx = n / P.t_step_save := by
  obtain ⟨D, tF, tD, res, tv, hD⟩ := exists_derived hS io (fun k => ((J k).sub 1).sub 0) hH
  rw [← hS.total] at h_f h_p h_rho
  obtain ⟨s', h1, h2⟩ := loop_eq (io := io) hV hS hH hD hts J dir (s := s) ⟨by simp [h_idx], h_of, h_f, h_p, h_fn, h_pn, h_name, h_rho⟩ hn (fun _ => rfl) (fun _ => rfl)
  exact ⟨_, s', h1, h2.fn, h2.pn, h2.name, h2.idx⟩

/-! ### what a run does -/

/-- the time printed with save `j` -/
def timeOf (P : ParamRec α) (j : Nat) : α := if j = 0 then lit 0 else P.dt * dbl (j * P.t_step_save)

theorem run_events (hV : Valid E P) (hS : BuiltGrid E P g) (J : Junk (Cx α)) (hH : History P g (stepMem J) F Q A B) (hD : Derived P g io (saveMem J) F Q A B D tF tD res tv)
    (hts : 1 ≤ P.t_step_save) (dir : List Char) :
    Main.run E io J dir P = ⟨(List.range ((P.nt - 1) / P.t_step_save + 1)).flatMap fun j =>
      saveEvents io dir tF tD res tv (timeOf P j) j (j * P.t_step_save), .ok ()⟩ := by
  rw [run_eq hV hS J hH hD hts dir, List.range_eq_range', List.range'_succ, List.flatMap_cons]
  refine congrArg (fun x => Prog.mk x (.ok ())) ?_
  rw [Nat.zero_mul]
  refine congrArg₂ (· ++ ·) ?_ (List.flatMap_congr fun j hj => ?_)
  · unfold timeOf; rw [if_pos rfl]
  · have := List.mem_range'_1.mp hj
    unfold timeOf
    rw [if_neg (by omega)]

/-- **C63.** A run performs exactly the saves `0, 1, ..., (nt-1)/t_step_save`, in this order; save `k` is of the state after exactly
`k * t_step_save` time steps from the initial data.  Each save prints one line of diagnostics and writes the tables of the field and of
the energy density of that state to the files with number `k`. -/
theorem C63_save_schedule (hV : Valid E P) (hS : BuiltGrid E P g) (J : Junk (Cx α)) (hH : History P g (stepMem J) F Q A B) (hD : Derived P g io (saveMem J) F Q A B D tF tD res tv)
    (hts : 1 ≤ P.t_step_save) (dir : List Char) :
    (Main.run E io J dir P).result = .ok () ∧
    (Main.run E io J dir P).events = saveEvents io dir tF tD res tv (lit 0) 0 0 ++
      (List.range' 1 ((P.nt - 1) / P.t_step_save)).flatMap fun k =>
        saveEvents io dir tF tD res tv (P.dt * dbl (k * P.t_step_save)) k (k * P.t_step_save) := by
  rw [run_eq hV hS J hH hD hts dir]
  exact ⟨rfl, rfl⟩

theorem diag_fileEvents (path : List Char) (ls : List (List Char)) : (fileEvents io path ls).filterMap diagOf = [] := by
  unfold fileEvents
  split
  · rw [List.filterMap_cons]
    show (ls.map (Event.append path)).filterMap diagOf = []
    rw [List.filterMap_map, List.filterMap_eq_nil_iff]
    intro x _
    rfl
  · rfl

theorem diag_saveEvents (dir : List Char) (t : α) (k i : Nat) :
    (saveEvents io dir tF tD res tv t k i).filterMap diagOf = [(t, res i, tv i)] := by
  unfold saveEvents
  rw [List.cons_append, List.filterMap_cons]
  show (t, res i, tv i) :: _ = _
  rw [List.filterMap_append, diag_fileEvents, diag_fileEvents]
  rfl

/-- **C63 / C64.** The lines of diagnostics, in order. -/
theorem C63_printed_lines (hV : Valid E P) (hS : BuiltGrid E P g) (J : Junk (Cx α)) (hH : History P g (stepMem J) F Q A B) (hD : Derived P g io (saveMem J) F Q A B D tF tD res tv)
    (hts : 1 ≤ P.t_step_save) (dir : List Char) :
    (Main.run E io J dir P).events.filterMap diagOf = (List.range ((P.nt - 1) / P.t_step_save + 1)).map fun k =>
      (if k = 0 then lit 0 else P.dt * dbl (k * P.t_step_save), res (k * P.t_step_save), tv (k * P.t_step_save)) := by
  rw [run_events hV hS J hH hD hts dir, List.filterMap_flatMap]
  rw [List.map_eq_flatMap]
  exact List.flatMap_congr fun j _ => diag_saveEvents ..

/-- **C66.** A run with admissible parameters and a positive save interval ends normally: no access outside an array, no failed
assertion, no exception, whatever the values in the fields are. -/
theorem C66_valid_run_is_safe (hV : Valid E P) (hts : 1 ≤ P.t_step_save) (io : IOEnv α) (J : Junk (Cx α)) (dir : List Char) :
    (Main.run E io J dir P).result = .ok () := by
  obtain ⟨g, hS, F, Q, A, B, hH, D, tF, tD, res, tv, hD⟩ := C69_history_exists hV io (stepMem J) (saveMem J)
  rw [run_eq hV hS J hH hD hts dir]

theorem main_eq (stod : List Char → Option α) (J : Junk (Cx α)) (files : List Char → Option (List Char)) (pf dir : List Char) :
    Main.main E io stod J files [pf, dir] = (Prog.lift (Params.ctor stod E.ndebug (files pf)) >>= fun P => Main.run E io J dir P) := by
  unfold Main.main
  rw [cassert_true _ _ (by rfl), Prog.lift_ok_bind]
  rfl

/-- **C66.** The same from the command line: parameter file and output directory given, the file saying `P`. -/
theorem C66_valid_main_is_safe (hV : Valid E P) (hts : 1 ≤ P.t_step_save) {stod : List Char → Option α}
    {val : String → Option (List Char)} {files : List Char → Option (List Char)} {pf text : List Char} {ls : List (List Char)}
    (hf : files pf = some text) (hl : FileLines text ls) (hv : ∀ n ∈ required, ∀ v, val n = some v ↔ ValueIn ls n.toList v)
    (hP : ParamsFrom stod val P) (io : IOEnv α) (J : Junk (Cx α)) (dir : List Char) :
    (Main.main E io stod J files [pf, dir]).result = .ok () ∧
      (Main.main E io stod J files [pf, dir]).events = (Main.run E io J dir P).events := by
  have h1 := (C56_parameters (nd := E.ndebug) hl hv).mpr hP
  rw [main_eq, hf, h1, Prog.lift_ok_bind]
  exact ⟨C66_valid_run_is_safe hV hts io J dir, rfl⟩

/-- **C57.** If a required parameter is missing, the program stops before it does anything: no file is created or changed and nothing
is printed by the time stepping. -/
theorem C57_no_effect {stod : List Char → Option α} {files : List Char → Option (List Char)} {pf text : List Char}
    {ls : List (List Char)} (hf : files pf = some text) (hl : FileLines text ls) {n : String} (hn : n ∈ required)
    (hm : ∀ l ∈ ls, ¬ Named n.toList l) (io : IOEnv α) (J : Junk (Cx α)) (dir : List Char) (fs : FS) :
    (Main.main E io stod J files [pf, dir]).events = [] ∧ fs.replay (Main.main E io stod J files [pf, dir]).events = fs ∧
    ((Main.main E io stod J files [pf, dir]).result = .error (.exit 0) ∨ (Main.main E io stod J files [pf, dir]).result = .error .exc) := by
  rw [main_eq, hf]
  rcases C57_missing_stops (stod := stod) (nd := E.ndebug) hl hn hm with h | h <;> rw [h, Prog.lift_err_bind]
  · exact ⟨rfl, rfl, Or.inl rfl⟩
  · exact ⟨rfl, rfl, Or.inr rfl⟩

/-- **C68** (the part that holds).  If the orders are close enough to the degrees, a run does the same whatever the uninitialised memory
contains.  Missing: other truncations, see `C22_uninitialised_read` and `C22_gradient_uninitialised`. -/
theorem C68_reproducible_partial (hV : Valid E P) (hO : OrdersOk P.nl P.nm) (io : IOEnv α) (J J' : Junk (Cx α)) (dir : List Char) :
    Main.run E io J dir P = Main.run E io J' dir P := by
  obtain ⟨g, hS, F, Q, A, B, hH, D, tF, tD, res, tv, hD⟩ := C69_history_exists hV io (stepMem J) (saveMem J)
  have hS' : Setup E P g := ⟨hS, hO⟩
  have hH' := hH.mem hS' (stepMem J')
  have hD' := hD.mem hS' hH (saveMem J')
  by_cases hts : 1 ≤ P.t_step_save
  · rw [run_eq hV hS J hH hD hts dir, run_eq hV hS J' hH' hD' hts dir]
  · have hts : P.t_step_save = 0 := by omega
    by_cases hnt : 2 ≤ P.nt
    · rw [run_zero hS J hH hD hts hnt dir, run_zero hS J' hH' hD' hts hnt dir]
    · obtain ⟨s, h1, h2⟩ := run_prefix hS hH hD J dir rfl
      obtain ⟨s', h1', h2'⟩ := run_prefix hS hH' hD' J' dir rfl
      rw [h2, h2', Prog.bind_mk_ok, Prog.bind_mk_ok, Prog.forRange_empty (by omega), Prog.forRange_empty (by omega), Prog.bind_mk_ok,
        Prog.bind_mk_ok]

/-- **C68.** The same from the command line: the parameter file alone determines what happens. -/
theorem C68_reproducible_main_partial {stod : List Char → Option α} {files files' : List Char → Option (List Char)} {pf : List Char}
    (hf : files pf = files' pf) (hV : ∀ P, Params.ctor stod E.ndebug (files pf) = .ok P → Valid E P ∧ OrdersOk P.nl P.nm) (io : IOEnv α) (J J' : Junk (Cx α))
    (dir : List Char) : Main.main E io stod J files [pf, dir] = Main.main E io stod J' files' [pf, dir] := by
  rw [main_eq, main_eq, ← hf]
  cases h : Params.ctor stod E.ndebug (files pf) with
  | error e => rw [Prog.lift_err_bind, Prog.lift_err_bind]
  | ok P =>
    rw [Prog.lift_ok_bind, Prog.lift_ok_bind]
    exact C68_reproducible_partial (hV P h).1 (hV P h).2 io J J' dir

/-! ### number and times of the saves -/

/-- **C64** (the part that holds).  Every printed line belongs to a state of the history after `i < nt` steps (`i` a multiple of the save
interval), and the printed time is `dt` times that number of steps (in exact arithmetic: `C64_time_exact_partial`).
Missing: the state after `nt` steps, see `C64_last_step_not_taken`. -/
theorem C64_printed_time_partial (hV : Valid E P) (hS : BuiltGrid E P g) (J : Junk (Cx α)) (hH : History P g (stepMem J) F Q A B)
    (hD : Derived P g io (saveMem J) F Q A B D tF tD res tv) (hts : 1 ≤ P.t_step_save) (hnt : 1 ≤ P.nt) (dir : List Char)
    {t r v : α} (h : Event.diag t r v ∈ (Main.run E io J dir P).events) :
    ∃ i, i < P.nt ∧ i % P.t_step_save = 0 ∧ r = res i ∧ v = tv i ∧ (t = P.dt * dbl i ∨ i = 0 ∧ t = lit 0) := by
  have h1 : (t, r, v) ∈ (Main.run E io J dir P).events.filterMap diagOf := List.mem_filterMap.mpr ⟨_, h, rfl⟩
  rw [C63_printed_lines hV hS J hH hD hts dir] at h1
  obtain ⟨k, hk, h2⟩ := List.mem_map.mp h1
  have hk' := List.mem_range.mp hk
  injection h2 with h2 h3
  injection h3 with h3 h4
  have h5 : k * P.t_step_save ≤ P.nt - 1 := (Nat.le_div_iff_mul_le (by omega)).mp (by omega)
  refine ⟨k * P.t_step_save, by omega, Nat.mul_mod_left _ _, h3.symm, h4.symm, ?_⟩
  by_cases h0 : k = 0
  · rw [if_pos h0] at h2
    exact Or.inr ⟨by rw [h0, Nat.zero_mul], h2.symm⟩
  · rw [if_neg h0] at h2
    exact Or.inl h2.symm

/-- **C64** (the claim that `nt` steps are made is refuted).  The loop ends with the fields of the state after `nt-1` steps, and with a
save after every step there are exactly `nt` lines of diagnostics, the last one of the state after `nt-1` steps. -/
theorem C64_last_step_not_taken (hV : Valid E P) (hS : BuiltGrid E P g) (J : Junk (Cx α)) (hH : History P g (stepMem J) F Q A B)
    (hD : Derived P g io (saveMem J) F Q A B D tF tD res tv) (hts : P.t_step_save = 1) (hnt : 1 ≤ P.nt) (dir : List Char) :
    ((Main.run E io J dir P).events.filterMap diagOf).length = P.nt ∧
    ((Main.run E io J dir P).events.filterMap diagOf).getLast? =
      some (if P.nt = 1 then lit 0 else P.dt * dbl (P.nt - 1), res (P.nt - 1), tv (P.nt - 1)) := by
  rw [C63_printed_lines hV hS J hH hD (by omega) dir, hts, Nat.div_one, Nat.sub_add_cancel hnt]
  refine ⟨by simp, ?_⟩
  rw [List.getLast?_map, List.getLast?_range, if_neg (by omega)]
  simp only [Option.map_some, Nat.mul_one]
  by_cases h : P.nt = 1
  · rw [if_pos (by omega), if_pos h]
  · rw [if_neg (by omega), if_neg h]

/-- **C65.** The launcher never asks for a save interval of zero. -/
theorem C65_launcher_interval_positive (nt num : Nat) : 1 ≤ Launcher.tStepSave nt num := by
  unfold Launcher.tStepSave
  dsimp only
  generalize nt / num = t
  split <;> omega

/-- **C65.** A hand-written parameter file with a save interval of zero: the initial save is made, and then, if there is a step to be
made at all, the program divides by zero (undefined behaviour). -/
theorem C65_zero_interval_undefined (hV : Valid E P) (hts : P.t_step_save = 0) (hnt : 2 ≤ P.nt) (io : IOEnv α) (J : Junk (Cx α))
    (dir : List Char) : (Main.run E io J dir P).result = .error .ub := by
  obtain ⟨g, hS, F, Q, A, B, hH, D, tF, tD, res, tv, hD⟩ := C69_history_exists hV io (stepMem J) (saveMem J)
  rw [run_zero hS J hH hD hts hnt dir]

/-- the arithmetic of C67 -/
theorem saves_bounds {nt num : Nat} (h1 : 1 ≤ num) (h2 : num ≤ nt) :
    num ≤ (nt - 1) / Launcher.tStepSave nt num + 1 ∧ (nt - 1) / Launcher.tStepSave nt num + 1 < 2 * num := by
  have hq : 1 ≤ nt / num := (Nat.le_div_iff_mul_le h1).mpr (by omega)
  have hts : Launcher.tStepSave nt num = nt / num := by
    unfold Launcher.tStepSave
    dsimp only
    rw [if_neg (by omega)]
  rw [hts]
  have hdm := Nat.div_add_mod nt num
  have hm := Nat.mod_lt nt h1
  generalize hqd : nt / num = q at *
  generalize nt % num = r at *
  constructor
  · have : num - 1 ≤ (nt - 1) / q := by
      rw [Nat.le_div_iff_mul_le hq, Nat.sub_mul, Nat.one_mul]
      omega
    omega
  · have : (nt - 1) / q < 2 * num - 1 := by
      rw [Nat.div_lt_iff_lt_mul hq]
      have h3 : num * q + (num - 1) * q = (2 * num - 1) * q := by rw [← Nat.add_mul]; congr 1; omega
      have h4 : num - 1 ≤ (num - 1) * q := Nat.le_mul_of_pos_right _ hq
      omega
    omega

/-- **C67.** With the save interval the launcher computes for `num` wanted saves (`1 ≤ num ≤ nt`), the run makes at least `num` and
fewer than `2*num` saves. -/
theorem C67_number_of_saves (hV : Valid E P) {num : Nat} (h1 : 1 ≤ num) (h2 : num ≤ P.nt) (hts : P.t_step_save = Launcher.tStepSave P.nt num)
    (io : IOEnv α) (J : Junk (Cx α)) (dir : List Char) :
    num ≤ ((Main.run E io J dir P).events.filterMap diagOf).length ∧ ((Main.run E io J dir P).events.filterMap diagOf).length < 2 * num := by
  obtain ⟨g, hS, F, Q, A, B, hH, D, tF, tD, res, tv, hD⟩ := C69_history_exists hV io (stepMem J) (saveMem J)
  rw [C63_printed_lines hV hS J hH hD (by rw [hts]; exact C65_launcher_interval_positive _ _) dir, hts]
  simpa using saves_bounds h1 h2

/-! ### files -/

/-- **C60.** Writing the spectrum of a grid function appends to the file `<name>_RPsl_<itm>.csv` a header if wanted and `nx*nl` rows;
row `ix*nl+l` has the radius of point `ix`, the degree `l` and the logarithm of the power in degree `l` on shell `ix`.  No other file
is touched. -/
theorem C60_spectrum_file (hS : BuiltGrid E P g) {v : List α} (hv : v.length = P.nx * P.nlat * P.nphi) (name : List Char) (sc : Bool)
    (itm : Int) (hc : io.canOpen (name ++ "_RPsl_".toList ++ Text.toStr itm ++ ".csv".toList) = true) :
    ∃ (S : List α) (R : Nat → α) (rows : List (List Char)),
      (∀ J z, z.length = P.nx * P.nl → g.set_angular_power_spectrum J v z = .ok S) ∧
      (∀ ix it ip, ix < P.nx → it < P.nlat → ip < P.nphi → ∃ θ φ, g.getR_th_ph ix it ip = .ok ⟨R ix, θ, φ⟩) ∧
      rows.length = P.nx * P.nl ∧
      (∀ ix l, ix < P.nx → l < P.nl → rows[ix * P.nl + l]? = some (specLine io (R ix) (dbl l) (Csv.logValue (gv S (ix * P.nl + l))))) ∧
      ∀ J, Appends (Csv.write_R_psl io g J name sc itm v) (name ++ "_RPsl_".toList ++ Text.toStr itm ++ ".csv".toList)
        ((if sc then ["R,l,log(value)\n".toList] else []) ++ rows) := by
  have hw := hS.wf
  have d1 : g.d.nx = P.nx := by rw [hS.dims]
  have d2 : g.d.nl = P.nl := by rw [hS.dims]
  have d3 : g.d.nlat = P.nlat := by rw [hS.dims]
  have d4 : g.d.nphi = P.nphi := by rw [hS.dims]
  rw [← hS.total] at hv
  refine ⟨g.specP v, g.radial.ptV, (List.range (P.nx * P.nl)).map fun k =>
    specLine io (g.radial.ptV (k / P.nl)) (dbl (k % P.nl)) (Csv.logValue (gv (g.specP v) k)), ?_, ?_, by simp, ?_, ?_⟩
  · intro J z hz
    exact hw.spectrum_eq J hv (by rw [hz, d1, d2])
  · intro ix it ip a b c
    exact ⟨_, _, hw.getR_eq ⟨by omega, by omega, by omega⟩⟩
  · intro ix l a b
    have h1 := Dims.div_mod_lemma (i := ix) b
    rw [Nat.mul_comm P.nl ix] at h1
    have h2 : ix * P.nl + l < P.nx * P.nl := by
      have := Dims.mul_add_lt a b
      rw [Nat.mul_comm P.nl ix] at this
      exact this
    rw [List.getElem?_map, List.getElem?_range h2, Option.map_some, h1.1, h1.2]
  · intro J
    rw [write_R_psl_gen hS J name sc itm hv]
    refine ⟨rfl, fun fs q => ?_⟩
    rw [replay_fileEvents hc]
    have : tableLines io sc "R,l,log(value)\n" g.d.nx g.d.nl g.radial.ptV (g.specP v)
        = (if sc = true then ["R,l,log(value)\n".toList] else []) ++ (List.range (P.nx * P.nl)).map fun k =>
          specLine io (g.radial.ptV (k / P.nl)) (dbl (k % P.nl)) (Csv.logValue (gv (g.specP v) k)) := by
      unfold tableLines
      refine congrArg _ ?_
      rw [range_mul_flatMap, d1, d2]
      refine List.flatMap_congr fun ix _ => List.map_congr_left fun l hl => ?_
      have h1 := Dims.div_mod_lemma (i := ix) (List.mem_range.mp hl)
      rw [Nat.mul_comm P.nl ix] at h1
      rw [h1.1, h1.2]
      rfl
    rw [this]

/-- **C60.** The file of the combined Chebyshev and harmonic spectrum (Chebyshev builds): row `n*nl+l` has `n`, `l` and the value of
`set_n_l_coef` for them. -/
theorem C60_chebyshev_spectrum_file (hS : BuiltGrid E P g) {c : Cheb α} (hg : g.radial = .cheb c) {v : List α}
    (hv : v.length = P.nx * P.nlat * P.nphi) (name : List Char) (sc : Bool)
    (itm : Int) (hc : io.canOpen (name ++ "_NPsl_".toList ++ Text.toStr itm ++ ".csv".toList) = true) :
    ∃ (S : List α) (rows : List (List Char)),
      (∀ J z, z.length = P.nx * P.nl → g.set_n_l_coef c J v z = .ok S) ∧ rows.length = P.nx * P.nl ∧
      (∀ n l, n < P.nx → l < P.nl → rows[n * P.nl + l]? = some (specLine io (dbl n) (dbl l) (Csv.logValue (gv S (n * P.nl + l))))) ∧
      ∀ J, Appends (Csv.write_n_psl io g c J name sc itm v) (name ++ "_NPsl_".toList ++ Text.toStr itm ++ ".csv".toList)
        ((if sc then ["n,l,log(value)\n".toList] else []) ++ rows) := by
  have hw := hS.wf
  have d1 : g.d.nx = P.nx := by rw [hS.dims]
  have d2 : g.d.nl = P.nl := by rw [hS.dims]
  rw [← hS.total] at hv
  refine ⟨g.nlP c v, (List.range (P.nx * P.nl)).map fun k =>
    specLine io (dbl (k / P.nl)) (dbl (k % P.nl)) (Csv.logValue (gv (g.nlP c v) k)), ?_, by simp, ?_, ?_⟩
  · intro J z hz
    exact set_n_l_coef_eq hw hg J hv (by rw [hz, d1, d2])
  · intro ix l a b
    have h1 := Dims.div_mod_lemma (i := ix) b
    rw [Nat.mul_comm P.nl ix] at h1
    have h2 : ix * P.nl + l < P.nx * P.nl := by
      have := Dims.mul_add_lt a b
      rw [Nat.mul_comm P.nl ix] at this
      exact this
    rw [List.getElem?_map, List.getElem?_range h2, Option.map_some, h1.1, h1.2]
  · intro J
    rw [write_n_psl_gen hS hg J name sc itm hv]
    refine ⟨rfl, fun fs q => ?_⟩
    rw [replay_fileEvents hc]
    have : tableLines io sc "n,l,log(value)\n" g.d.nx g.d.nl dbl (g.nlP c v)
        = (if sc = true then ["n,l,log(value)\n".toList] else []) ++ (List.range (P.nx * P.nl)).map fun k =>
          specLine io (dbl (k / P.nl)) (dbl (k % P.nl)) (Csv.logValue (gv (g.nlP c v) k)) := by
      unfold tableLines
      refine congrArg _ ?_
      rw [range_mul_flatMap, d1, d2]
      refine List.flatMap_congr fun ix _ => List.map_congr_left fun l hl => ?_
      have h1 := Dims.div_mod_lemma (i := ix) (List.mem_range.mp hl)
      rw [Nat.mul_comm P.nl ix] at h1
      rw [h1.1, h1.2]
      rfl
    rw [this]

/-- **C60.** The plain writer: one value per line, appended to `<name>_<itm>.csv`. -/
theorem C60_plain_file (name : List Char) (itm : Nat) (v : List α)
    (hc : io.canOpen (name ++ "_".toList ++ Nat.toDigits 10 itm ++ ".csv".toList) = true) :
    Appends (Csv.write io name itm v) (name ++ "_".toList ++ Nat.toDigits 10 itm ++ ".csv".toList)
      (v.map fun x => io.fmt x ++ "\n".toList) := by
  rw [write_gen]
  exact ⟨rfl, fun fs q => replay_fileEvents hc fs q⟩

/-- **C60.** A file that cannot be opened is skipped: nothing is written and the caller goes on as if it had been. -/
theorem C60_unwritable_skipped (hS : BuiltGrid E P g) {v : List α} (hv : v.length = P.nx * P.nlat * P.nphi) (name : List Char) (sc : Bool)
    (itm : Int) (hc : io.canOpen (name ++ "_RPsl_".toList ++ Text.toStr itm ++ ".csv".toList) = false) (J : Junk (Cx α)) :
    Csv.write_R_psl io g J name sc itm v = ⟨[], .ok ()⟩ := by
  rw [← hS.total] at hv
  rw [write_R_psl_gen hS J name sc itm hv]
  unfold fileEvents
  rw [if_neg (by rw [hc]; decide)]

/-- **C62.** Within a run, different saves and different quantities go to different files. -/
theorem C62_distinct_files {dir : List Char} {nm nm' : String} {k k' : Nat} (hn : nm = "f" ∨ nm = "rho") (hn' : nm' = "f" ∨ nm' = "rho") :
    pathOf dir nm k = pathOf dir nm' k' ↔ nm = nm' ∧ k = k' :=
  ⟨pathOf_inj hn hn', fun h => by rw [h.1, h.2]⟩

/-- content of a file after some complete saves -/
theorem replay_saves (hopen : ∀ nm k, io.canOpen (pathOf dir nm k) = true) (t : Nat → α) (c n : Nat) (fs : FS) :
    let es := (List.range n).flatMap fun j => saveEvents io dir tF tD res tv (t j) j (j * c)
    (∀ k, k < n → fs.replay es (pathOf dir "f" k) = some ((fs (pathOf dir "f" k)).getD [] ++ (tF (k * c)).flatten) ∧
      fs.replay es (pathOf dir "rho" k) = some ((fs (pathOf dir "rho" k)).getD [] ++ (tD (k * c)).flatten)) ∧
    ∀ q, (∀ k, k < n → q ≠ pathOf dir "f" k ∧ q ≠ pathOf dir "rho" k) → fs.replay es q = fs q := by
  intro es
  have htouch : ∀ q j, (saveEvents io dir tF tD res tv (t j) j (j * c)).any (Event.touches q)
      = (decide (pathOf dir "f" j = q) || decide (pathOf dir "rho" j = q)) := by
    intro q j
    unfold saveEvents
    rw [List.cons_append, List.any_cons, List.any_append, touches_fileEvents, touches_fileEvents, hopen, hopen]
    simp [Event.touches]
  have htext : ∀ q j, (saveEvents io dir tF tD res tv (t j) j (j * c)).flatMap (Event.text q)
      = (if pathOf dir "f" j = q then (tF (j * c)).flatten else []) ++ (if pathOf dir "rho" j = q then (tD (j * c)).flatten else []) := by
    intro q j
    unfold saveEvents
    rw [List.cons_append, List.flatMap_cons, List.flatMap_append, text_fileEvents (hopen _ _), text_fileEvents (hopen _ _)]
    rfl
  refine ⟨fun k hk => ⟨?_, ?_⟩, ?_⟩
  · rw [FS.replay_at, if_pos, List.flatMap_assoc]
    · refine congrArg some (congrArg (List.append _) ?_)
      rw [flatMap_single hk]
      · rw [htext, if_pos rfl, if_neg (fun h => absurd (pathOf_inj (Or.inr rfl) (Or.inl rfl) h).1 (by decide)), List.append_nil]
      · intro j _ hj
        rw [htext, if_neg (fun h => hj (pathOf_inj (Or.inl rfl) (Or.inl rfl) h).2),
          if_neg (fun h => absurd (pathOf_inj (Or.inr rfl) (Or.inl rfl) h).1 (by decide))]
        rfl
    · rw [List.any_flatMap, List.any_eq_true]
      exact ⟨k, List.mem_range.mpr hk, by rw [htouch]; simp⟩
  · rw [FS.replay_at, if_pos, List.flatMap_assoc]
    · refine congrArg some (congrArg (List.append _) ?_)
      rw [flatMap_single hk]
      · rw [htext, if_neg (fun h => absurd (pathOf_inj (Or.inl rfl) (Or.inr rfl) h).1 (by decide)), if_pos rfl, List.nil_append]
      · intro j _ hj
        rw [htext, if_neg (fun h => absurd (pathOf_inj (Or.inl rfl) (Or.inr rfl) h).1 (by decide)),
          if_neg (fun h => hj (pathOf_inj (Or.inr rfl) (Or.inr rfl) h).2)]
        rfl
    · rw [List.any_flatMap, List.any_eq_true]
      exact ⟨k, List.mem_range.mpr hk, by rw [htouch]; simp⟩
  · intro q hq
    rw [FS.replay_at, if_neg]
    rw [Bool.not_eq_true, List.any_flatMap, List.any_eq_false]
    intro j hj
    have := hq j (List.mem_range.mp hj)
    rw [htouch]
    simp [Ne.symm this.1, Ne.symm this.2]

/-- **C62.** After a run, the file of each quantity and save number has got exactly one block, the table of its state, at its end; every
other file is as before. -/
theorem C62_one_block_per_file (hV : Valid E P) (hS : BuiltGrid E P g) (J : Junk (Cx α)) (hH : History P g (stepMem J) F Q A B)
    (hD : Derived P g io (saveMem J) F Q A B D tF tD res tv) (hts : 1 ≤ P.t_step_save) (dir : List Char)
    (hopen : ∀ nm k, io.canOpen (pathOf dir nm k) = true) (fs : FS) :
    (∀ k, k ≤ (P.nt - 1) / P.t_step_save →
      fs.replay (Main.run E io J dir P).events (pathOf dir "f" k)
        = some ((fs (pathOf dir "f" k)).getD [] ++ (tF (k * P.t_step_save)).flatten) ∧
      fs.replay (Main.run E io J dir P).events (pathOf dir "rho" k)
        = some ((fs (pathOf dir "rho" k)).getD [] ++ (tD (k * P.t_step_save)).flatten)) ∧
    ∀ q, (∀ k, k ≤ (P.nt - 1) / P.t_step_save → q ≠ pathOf dir "f" k ∧ q ≠ pathOf dir "rho" k) →
      fs.replay (Main.run E io J dir P).events q = fs q := by
  rw [run_events hV hS J hH hD hts dir]
  have h := replay_saves (tF := tF) (tD := tD) (res := res) (tv := tv) hopen (timeOf P) P.t_step_save ((P.nt - 1) / P.t_step_save + 1) fs
  exact ⟨fun k hk => h.1 k (by omega), fun q hq => h.2 q (fun k hk => hq k (by omega))⟩

/-- **C62.** Running again into the same directory appends the block of the second run; the first one stays.  The two blocks are the
same if the orders are close enough to the degrees (otherwise the second run may see other uninitialised memory, C22). -/
theorem C62_rerun_appends (hV : Valid E P) (hS : BuiltGrid E P g) (J J' : Junk (Cx α)) (hH : History P g (stepMem J) F Q A B)
    (hD : Derived P g io (saveMem J) F Q A B D tF tD res tv) {F' Q' A' B' D' : Nat → List α} {tF' tD' : Nat → List (List Char)}
    {res' tv' : Nat → α} (hH' : History P g (stepMem J') F' Q' A' B')
    (hD' : Derived P g io (saveMem J') F' Q' A' B' D' tF' tD' res' tv') (hts : 1 ≤ P.t_step_save) (dir : List Char)
    (hopen : ∀ nm k, io.canOpen (pathOf dir nm k) = true) (fs : FS) {k : Nat} (hk : k ≤ (P.nt - 1) / P.t_step_save) :
    (fs.replay (Main.run E io J dir P).events).replay (Main.run E io J' dir P).events (pathOf dir "f" k)
      = some ((fs (pathOf dir "f" k)).getD [] ++ (tF (k * P.t_step_save)).flatten ++ (tF' (k * P.t_step_save)).flatten) ∧
    (fs.replay (Main.run E io J dir P).events).replay (Main.run E io J' dir P).events (pathOf dir "rho" k)
      = some ((fs (pathOf dir "rho" k)).getD [] ++ (tD (k * P.t_step_save)).flatten ++ (tD' (k * P.t_step_save)).flatten) ∧
    (OrdersOk P.nl P.nm → ∀ i, tF' i = tF i ∧ tD' i = tD i) := by
  have h1 := (C62_one_block_per_file hV hS J hH hD hts dir hopen fs).1 k hk
  have h2 := (C62_one_block_per_file hV hS J' hH' hD' hts dir hopen (fs.replay (Main.run E io J dir P).events)).1 k hk
  rw [h2.1, h2.2, h1.1, h1.2]
  refine ⟨rfl, rfl, fun hO i => ?_⟩
  have hS' : Setup E P g := ⟨hS, hO⟩
  obtain ⟨e1, e2, _, _⟩ := C69_history_unique hS (hH.mem hS' (stepMem J')) hH'
  subst e1 e2
  have hl := hH.len i
  rw [← hS.total] at hl
  obtain ⟨e, _, he⟩ := Eom.Of.existsB hS
  have z0 : (List.replicate g.d.total (lit 0 : α)).length = P.nx * P.nlat * P.nphi := by simp [hS.total]
  obtain ⟨_, a1⟩ := (hD.mem hS' hH (saveMem J')).dens i e _ he z0
  obtain ⟨_, a2⟩ := hD'.dens i e _ he z0
  have a3 := a1.symm.trans a2
  injection a3 with a3
  injection a3 with _ a3
  have hDl : (D i).length = g.d.total := by
    have a4 := a1.symm.trans (Eom.set_rho_junk_eq hS.wf (he.wf0 hS) (saveMem J' i) hl.1 hl.2 (by simp))
    injection a4 with a4
    injection a4 with _ a4
    rw [a4]; simp
  exact ⟨((hD'.tabF i).unique hS.wf hl.1).trans ((hD.tabF i).unique hS.wf hl.1).symm,
    ((hD'.tabD i).unique hS.wf (by rw [← a3]; exact hDl)).trans (by rw [← a3]; exact ((hD.tabD i).unique hS.wf hDl).symm)⟩

theorem prefix_fileEvents {path : List Char} {ls : List (List Char)} (hc : io.canOpen path = true) {r : List (Event α)}
    (h : r <+: fileEvents io path ls) : r = [] ∨ ∃ n, r = fileEvents io path (ls.take n) := by
  unfold fileEvents at h ⊢
  rw [if_pos hc] at h
  cases r with
  | nil => exact Or.inl rfl
  | cons e r =>
    right
    rw [List.cons_prefix_cons] at h
    obtain ⟨rfl, h⟩ := h
    refine ⟨r.length, ?_⟩
    rw [if_pos hc]
    refine congrArg _ ?_
    rw [List.map_take]
    exact List.prefix_iff_eq_take.mp h

/-- the content of a file, a missing file counting as empty -/
def FS.content (fs : FS) (q : List Char) : List Char := (fs q).getD []

/-- **C71.** If the program is stopped at any moment (crash, kill), there is a save number `j` such that the files of all earlier saves
are complete, those of all later saves and all other files are untouched, and in the files of save `j` some number of whole lines has been
added, the density's only after all of the field's. -/
theorem C71_crash_consistency (hV : Valid E P) (hS : BuiltGrid E P g) (J : Junk (Cx α)) (hH : History P g (stepMem J) F Q A B)
    (hD : Derived P g io (saveMem J) F Q A B D tF tD res tv) (hts : 1 ≤ P.t_step_save) (dir : List Char)
    (hopen : ∀ nm k, io.canOpen (pathOf dir nm k) = true) (fs : FS) {pre : List (Event α)}
    (hpre : pre <+: (Main.run E io J dir P).events) :
    ∃ j, j ≤ (P.nt - 1) / P.t_step_save + 1 ∧
      (∀ k, k < j → (fs.replay pre).content (pathOf dir "f" k) = fs.content (pathOf dir "f" k) ++ (tF (k * P.t_step_save)).flatten ∧
        (fs.replay pre).content (pathOf dir "rho" k) = fs.content (pathOf dir "rho" k) ++ (tD (k * P.t_step_save)).flatten) ∧
      (∀ q, (∀ k, k ≤ j → q ≠ pathOf dir "f" k ∧ q ≠ pathOf dir "rho" k) → fs.replay pre q = fs q) ∧
      ∃ n m,
        (fs.replay pre).content (pathOf dir "f" j) = fs.content (pathOf dir "f" j) ++ ((tF (j * P.t_step_save)).take n).flatten ∧
        (fs.replay pre).content (pathOf dir "rho" j) = fs.content (pathOf dir "rho" j) ++ ((tD (j * P.t_step_save)).take m).flatten ∧
        (0 < m → (tF (j * P.t_step_save)).length ≤ n) := by
  rw [run_events hV hS J hH hD hts dir] at hpre
  obtain ⟨j, r, hj, rfl, hr⟩ := prefix_flatMap_range _ _ _ hpre
  have h := replay_saves (tF := tF) (tD := tD) (res := res) (tv := tv) hopen (timeOf P) P.t_step_save j fs
  generalize ((List.range j).flatMap fun j => saveEvents io dir tF tD res tv (timeOf P j) j (j * P.t_step_save)) = es at *
  obtain ⟨h1, h2⟩ := h
  have hd : ∀ {a b}, pathOf dir "f" a ≠ pathOf dir "rho" b := fun h => absurd (pathOf_inj (Or.inl rfl) (Or.inr rfl) h).1 (by decide)
  have hff : ∀ {a b}, pathOf dir "f" a = pathOf dir "f" b → a = b := fun h => (pathOf_inj (Or.inl rfl) (Or.inl rfl) h).2
  have hrr : ∀ {a b}, pathOf dir "rho" a = pathOf dir "rho" b → a = b := fun h => (pathOf_inj (Or.inr rfl) (Or.inr rfl) h).2
  have c0f : fs.replay es (pathOf dir "f" j) = fs (pathOf dir "f" j) :=
    h2 _ fun k hk => ⟨fun h => absurd (hff h) (by omega), hd⟩
  have c0r : fs.replay es (pathOf dir "rho" j) = fs (pathOf dir "rho" j) :=
    h2 _ fun k hk => ⟨fun h => hd h.symm, fun h => absurd (hrr h) (by omega)⟩
  -- the tail: lines of save `j`
  have key : ∃ n m, (∀ fs' : FS, (∀ q, q ≠ pathOf dir "f" j → q ≠ pathOf dir "rho" j → fs'.replay r q = fs' q) ∧
      (fs'.replay r).content (pathOf dir "f" j) = fs'.content (pathOf dir "f" j) ++ ((tF (j * P.t_step_save)).take n).flatten ∧
      (fs'.replay r).content (pathOf dir "rho" j) = fs'.content (pathOf dir "rho" j) ++ ((tD (j * P.t_step_save)).take m).flatten) ∧
      (0 < m → (tF (j * P.t_step_save)).length ≤ n) := by
    have hnil : ∀ fs' : FS, (∀ q, q ≠ pathOf dir "f" j → q ≠ pathOf dir "rho" j → fs'.replay ([] : List (Event α)) q = fs' q) ∧
      (fs'.replay ([] : List (Event α))).content (pathOf dir "f" j)
        = fs'.content (pathOf dir "f" j) ++ ((tF (j * P.t_step_save)).take 0).flatten ∧
      (fs'.replay ([] : List (Event α))).content (pathOf dir "rho" j)
        = fs'.content (pathOf dir "rho" j) ++ ((tD (j * P.t_step_save)).take 0).flatten := by
      intro fs'
      refine ⟨fun _ _ _ => rfl, ?_, ?_⟩ <;> simp [FS.replay]
    have hdiag : ∀ (fs' : FS) (t a b : α) (es : List (Event α)), fs'.replay (Event.diag t a b :: es) = fs'.replay es := fun _ _ _ _ _ => rfl
    rcases hr with ⟨_, rfl⟩ | ⟨_, hr⟩
    · exact ⟨0, 0, hnil, by simp⟩
    · cases r with
      | nil => exact ⟨0, 0, hnil, by simp⟩
      | cons e r =>
        unfold saveEvents at hr
        rw [List.cons_append, List.cons_prefix_cons] at hr
        obtain ⟨rfl, hr⟩ := hr
        rcases List.prefix_or_prefix_of_prefix hr (List.prefix_append _ _) with h3 | ⟨r', rfl⟩
        · rcases prefix_fileEvents (hopen _ _) h3 with rfl | ⟨n, rfl⟩
          · exact ⟨0, 0, hnil, by simp⟩
          · refine ⟨n, 0, fun fs' => ?_, by simp⟩
            rw [hdiag]
            refine ⟨fun q a b => ?_, ?_, ?_⟩
            · rw [replay_fileEvents (hopen _ _), if_neg a]
            · unfold FS.content
              rw [replay_fileEvents (hopen _ _), if_pos rfl, Option.getD_some]
            · unfold FS.content
              rw [replay_fileEvents (hopen _ _), if_neg hd.symm]
              simp
        · have h4 := (List.prefix_append_right_inj _).mp hr
          rcases prefix_fileEvents (hopen _ _) h4 with rfl | ⟨m, rfl⟩
          · refine ⟨(tF (j * P.t_step_save)).length, 0, fun fs' => ?_, by simp⟩
            rw [hdiag, List.append_nil]
            refine ⟨fun q a b => ?_, ?_, ?_⟩
            · rw [replay_fileEvents (hopen _ _), if_neg a]
            · unfold FS.content
              rw [replay_fileEvents (hopen _ _), if_pos rfl, Option.getD_some, List.take_length]
            · unfold FS.content
              rw [replay_fileEvents (hopen _ _), if_neg hd.symm]
              simp
          · refine ⟨(tF (j * P.t_step_save)).length, m, fun fs' => ?_, by simp⟩
            rw [hdiag, FS.replay_append]
            refine ⟨fun q a b => ?_, ?_, ?_⟩
            · rw [replay_fileEvents (hopen _ _), if_neg b, replay_fileEvents (hopen _ _), if_neg a]
            · unfold FS.content
              rw [replay_fileEvents (hopen _ _), if_neg hd, replay_fileEvents (hopen _ _), if_pos rfl, Option.getD_some, List.take_length]
            · unfold FS.content
              rw [replay_fileEvents (hopen _ _), if_pos rfl, Option.getD_some, replay_fileEvents (hopen _ _), if_neg hd.symm]
  obtain ⟨n, m, hk, hnm⟩ := key
  obtain ⟨k1, k2, k3⟩ := hk (fs.replay es)
  rw [FS.replay_append]
  refine ⟨j, hj, fun k hlt => ?_, fun q hq => ?_, n, m, ?_, ?_, hnm⟩
  · unfold FS.content
    rw [k1 _ (fun h => absurd (hff h) (by omega)) hd, k1 _ (fun h => hd h.symm) (fun h => absurd (hrr h) (by omega)), (h1 k hlt).1,
      (h1 k hlt).2]
    exact ⟨rfl, rfl⟩
  · rw [k1 q (hq j (Nat.le_refl _)).1 (hq j (Nat.le_refl _)).2]
    exact h2 q fun k hk => hq k (by omega)
  · rw [k2]
    unfold FS.content
    rw [c0f]
  · rw [k3]
    unfold FS.content
    rw [c0r]

end

/-! ### the numbers in the files -/
open CR

/-- **C61.** The value written for a power `p` is `log10 p` from `1e-16` on and `-16` below; it is never below `-16`. -/
theorem C61_log_value (p : ℝ) :
    (1 / 10 ^ 16 ≤ p → Csv.logValue (fin p) = fin (Real.logb 10 p)) ∧ (p < 1 / 10 ^ 16 → Csv.logValue (fin p) = fin (-16)) ∧
    ∃ y, Csv.logValue (fin p) = fin y ∧ -16 ≤ y := by
  have hlog : Real.logb 10 (1 / 10 ^ 16) = -16 := by
    rw [one_div, Real.logb_inv, ← Real.rpow_natCast, Real.logb_rpow (by norm_num) (by norm_num)]
    norm_num
  have h1 : 1 / 10 ^ 16 ≤ p → Csv.logValue (fin p) = fin (Real.logb 10 p) := by
    intro h
    have hp : 0 < p := lt_of_lt_of_le (by positivity) h
    unfold Csv.logValue
    rw [fin_tenth, if_neg (by rw [fin_lt, not_lt]; exact h), fin_log _ hp, fin_ofNat', fin_log _ (by norm_num), fin_div _ _ (by positivity)]
    rfl
  have h2 : p < 1 / 10 ^ 16 → Csv.logValue (fin p) = fin (-16) := by
    intro h
    unfold Csv.logValue
    rw [fin_tenth, if_pos (by rw [fin_lt]; exact h), fin_lit]
    norm_num
  refine ⟨h1, h2, ?_⟩
  by_cases h : 1 / 10 ^ 16 ≤ p
  · refine ⟨_, h1 h, ?_⟩
    rw [← hlog]
    exact Real.logb_le_logb_of_le (by norm_num) (by positivity) h
  · exact ⟨_, h2 (lt_of_not_ge h), le_refl _⟩

/-- **C61.** The written value is monotone in the power. -/
theorem C61_monotone {p p' : ℝ} (h : p ≤ p') {y y' : ℝ} (hy : Csv.logValue (fin p) = fin y) (hy' : Csv.logValue (fin p') = fin y') : y ≤ y' := by
  obtain ⟨a1, a2, z, a3, a4⟩ := C61_log_value p
  obtain ⟨b1, b2, z', b3, b4⟩ := C61_log_value p'
  by_cases h1 : 1 / 10 ^ 16 ≤ p
  · have e1 := fin_inj.mp (hy.symm.trans (a1 h1))
    have e2 := fin_inj.mp (hy'.symm.trans (b1 (le_trans h1 h)))
    rw [e1, e2]
    exact Real.logb_le_logb_of_le (by norm_num) (lt_of_lt_of_le (by positivity) h1) h
  · have e1 := fin_inj.mp (hy.symm.trans (a2 (lt_of_not_ge h1)))
    have e2 := fin_inj.mp (hy'.symm.trans b3)
    rw [e1, e2]
    exact b4

/-- **C64.** In exact arithmetic the printed time of every save, the initial one included, is `dt` times the number of steps. -/
theorem C64_time_exact_partial {P : ParamRec CR} {d : ℝ} (hd : P.dt = fin d) (k : ℕ) :
    timeOf P k = fin (d * ((k * P.t_step_save : ℕ) : ℝ)) := by
  unfold timeOf
  by_cases h : k = 0
  · rw [if_pos h, h, fin_lit, Nat.zero_mul]; norm_num
  · rw [if_neg h, hd, fin_dbl, fin_mul]

theorem demo_valid {E : Env CR} {x : ℕ → ℝ} {A : ℕ → ℕ → ℕ → ℝ} {g : Grid CR} (hE : E.Exact 33 7 7 8 16 x A) (hS : Setup E demoP g) :
    Valid E demoP where
  sized := hE.sized
  sizes := hS.sizes
  m_nonneg := by decide
  m_le_l := by decide
  l_le := by decide
  m_le := by decide
  nt_lt := by decide

/-- non-vacuity of the theorems about runs: the concrete set-up, with the 10 saves of a run of `nt=100`, `t_step_save=10`, has a history
and everything derived from it, in every build. -/
example (contig ndebug useCheb : Bool) (J : Junk (Cx CR)) : ∃ (E : Env CR) (io : IOEnv CR) (g : Grid CR) (F Q A B D : ℕ → List CR)
    (tF tD : ℕ → List (List Char)) (res tv : ℕ → CR), Valid E demoP ∧ Setup E demoP g ∧ History demoP g (stepMem J) F Q A B ∧
    Derived demoP g io (saveMem J) F Q A B D tF tD res tv ∧ 1 ≤ demoP.t_step_save ∧ (demoP.nt - 1) / demoP.t_step_save + 1 = 10 ∧
    (∀ nm k, io.canOpen (pathOf [] nm k) = true) := by
  obtain ⟨E, x, A, g, e, _, _, h3, h4, h5, _, _⟩ := demo_setup contig ndebug useCheb
  have hV := demo_valid h4 h5
  obtain ⟨F, Q, A, B, hH⟩ := exists_history hV h5.toBuiltGrid (stepMem J)
  obtain ⟨D, tF, tD, res, tv, hD⟩ := exists_derived h5.toBuiltGrid ⟨fun _ => true, fun _ => []⟩ (saveMem J) hH
  exact ⟨E, _, g, F, Q, A, B, D, tF, tD, res, tv, hV, h5, hH, hD, by decide, by decide, fun _ _ => rfl⟩

/-- ... and so has one whose orders are far below its degrees (`nl=20`, `nm=14` as in the repository's own tests), where uninitialised
memory is read: it still runs to its end within its arrays. -/
example (contig ndebug useCheb : Bool) : ∃ (E : Env CR) (P : ParamRec CR), P.nl = 20 ∧ P.nm = 14 ∧ ¬ OrdersOk P.nl P.nm ∧ Valid E P ∧
    1 ≤ P.t_step_save := by
  obtain ⟨P, hP⟩ : ∃ P : ParamRec CR, P = { demoP with nl := 20, nm := 14, nlat := 40, nphi := 32 } := ⟨_, rfl⟩
  obtain ⟨E, x, A, h1, h2, h3, h4⟩ := exists_env contig ndebug useCheb (nx := 33) (nl := 20) (nm := 14) (nlat := 40) (nphi := 32)
    (by omega) (by omega) (by omega)
  have z1 : P.nx = 33 := by rw [hP]; rfl
  have z2 : P.nl = 20 := by rw [hP]
  have z3 : P.nm = 14 := by rw [hP]
  have z4 : P.nlat = 40 := by rw [hP]
  have z5 : P.nphi = 32 := by rw [hP]
  have z6 : P.l_ang = 2 := by rw [hP]; rfl
  have z7 : P.m_ang = 1 := by rw [hP]; rfl
  have z8 : P.nt = 100 := by rw [hP]; rfl
  have z9 : P.t_step_save = 10 := by rw [hP]; rfl
  refine ⟨E, P, z2, z3, by rw [z2, z3]; unfold OrdersOk; decide, ⟨?_, ?_, ?_, ?_, ?_, ?_, ?_⟩, by omega⟩
  · rw [z1, z2, z3, z4, z5]; exact h4.sized
  · rw [z1, z2, z4, z5]
    exact ⟨by rw [h3]; cases useCheb <;> decide, by omega, by omega, by decide, by decide, by omega⟩
  · omega
  · omega
  · omega
  · omega
  · rw [z8]; decide

/-- non-vacuity of C67: 100 steps, 10 wanted saves: 10 saves; 100 steps, 30 wanted saves: 34 saves. -/
example : (100 - 1) / Launcher.tStepSave 100 10 + 1 = 10 ∧ (100 - 1) / Launcher.tStepSave 100 30 + 1 = 34 := by decide

end SFK
