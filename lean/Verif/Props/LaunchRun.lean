import Verif.Lemmas.LaunchShell
import Verif.Props.Run
import Verif.Lemmas.LaunchDemo
/-
C85, C86, C87: launching a run with sim_class.py.
-/
namespace SFK
open Scalar Launcher
variable {α : Type} [Scalar α]
variable {V : PyEnv α} {X : Machine α} {o : Obj α} {w : World}

/-! ### the parts of a launch -/

theorem put_files_ne {w : World} {p t q : List Char} (h : q ≠ p) : (w.put p t).files q = w.files q := by
  unfold World.put
  dsimp only
  rw [if_neg h]

theorem put_files_self (w : World) (p t : List Char) : (w.put p t).files p = some t := by
  unfold World.put
  dsimp only
  rw [if_pos rfl]

theorem put_in {w : World} {dir r t q : List Char} (hr : '/' ∉ r) (hq : ¬ In dir q) : (w.put (dir ++ '/' :: r) t).files q = w.files q :=
  put_files_ne fun e => hq ⟨r, e, hr⟩

theorem not_in {dir q : List Char} (hq : ¬ In dir q) : ∀ r, '/' ∉ r → ".csv".toList <:+ r → q ≠ dir ++ '/' :: r := fun r hr _ e => hq ⟨r, e, hr⟩

/-- running the solver -/
theorem runHere_world {dir bin : List Char} :
    (∀ q, ¬ In dir q → (runHere X dir bin w).1.files q = w.files q) ∧ (runHere X dir bin w).1.dirs = w.dirs := by
  have hout : ∀ (w : World) (t q : List Char), ¬ In dir q → (w.put (dir ++ "/out.txt".toList) t).files q = w.files q :=
    fun w t q hq => put_in (r := "out.txt".toList) (by decide) hq
  unfold runHere
  dsimp only
  split
  · exact ⟨fun q hq => hout _ _ q hq, rfl⟩
  · rename_i E hE
    have hl := foldl_event (dir := dir) (main_loc (E := E) (io := X.io) (stod := X.stod) (J := X.junk)
      (files := fun q => (w.put (dir ++ "/out.txt".toList) []).files (resolve dir q)) (pf := "params.txt".toList) (dir := ".".toList)).events
      (w.put (dir ++ "/out.txt".toList) []) (fun q => (w.put (dir ++ "/out.txt".toList) []).files (resolve dir q)) (fun r => rfl)
    refine ⟨fun q hq => ?_, ?_⟩
    · rw [hout _ _ q hq, hl.2.1 q (not_in hq), hout _ _ q hq]
    · exact hl.2.2

theorem submit_world {dir : List Char} {o : Obj α} {bin run : List Char} :
    (∀ q, ¬ In dir q → (start.submit V dir o w bin run).world.files q = w.files q) ∧ (start.submit V dir o w bin run).world.dirs = w.dirs := by
  unfold start.submit
  split
  · exact ⟨fun q hq => put_in (r := "run.slurm".toList) (by decide) hq, rfl⟩
  · exact ⟨fun q hq => put_in (r := "run.slurm".toList) (by decide) hq, rfl⟩

theorem here_world {dir : List Char} {o : Obj α} {bin : List Char} {t : Bool} (hb : Plain bin) (hf : (w.files (dir ++ '/' :: bin)).isSome) :
    (∀ q, ¬ In dir q → (start.here V X dir o w bin (runStr t bin)).world.files q = w.files q) ∧
    (start.here V X dir o w bin (runStr t bin)).world.dirs = w.dirs := by
  unfold start.here
  split
  · dsimp only
    rw [home_run hb]
    · exact ⟨fun q hq => runHere_world.1 q hq, runHere_world.2⟩
    · exact hf
  · exact ⟨fun _ _ => rfl, rfl⟩

/-- everything from the copying of the binary on -/
theorem start_world {dir : List Char} (hp : PlainBin o) :
    (∀ q, ¬ In dir q → (start V X dir o w).world.files q = w.files q) ∧ (start V X dir o w).world.dirs = w.dirs := by
  unfold start
  split
  · exact ⟨fun _ _ => rfl, rfl⟩
  rename_i bin hbn
  have hpl : Plain bin := by
    apply hp
    obtain ⟨v, hv, hb⟩ := exec_bind_ok hbn
    cases v <;> simp only [PyObj.toStr] at hb <;> first | (injection hb with hb; subst hb; exact hv) | cases hb
  split
  · exact ⟨fun _ _ => rfl, rfl⟩
  rename_i prog _
  split
  · exact ⟨fun _ _ => rfl, rfl⟩
  rename_i hb
  dsimp only
  have hput : ∀ q, ¬ In dir q → (w.put (dir ++ '/' :: bin) prog).files q = w.files q := fun q hq => put_in hb hq
  have hfs : ((w.put (dir ++ '/' :: bin) prog).files (dir ++ '/' :: bin)).isSome := by rw [put_files_self]; rfl
  split
  · exact ⟨hput, rfl⟩
  split
  · exact ⟨hput, rfl⟩
  split
  · exact ⟨fun q hq => ((here_world hpl hfs).1 q hq).trans (hput q hq), (here_world hpl hfs).2⟩
  · exact ⟨fun q hq => (submit_world.1 q hq).trans (hput q hq), submit_world.2⟩

theorem isHome_home : (PyObj.str "home".toList : PyObj α).isHome = true := by simp [PyObj.isHome]

/-- attributes `set_derived_params` sets -/
def derivedNames : List String := ["horizon", "rl", "ru", "Rmin", "Rmax", "dt", "nt", "t_step_save"]

/-- The form of the object after `set_derived_params`. -/
theorem derived_form {o1 : Obj α} (h : set_derived_params V o = .ok o1) :
    ∃ vh vl vu vR vM vd vn vt : PyObj α,
      o1 = (((((((o.set "horizon" vh).set "rl" vl).set "ru" vu).set "Rmin" vR).set "Rmax" vM).set "dt" vd).set "nt" vn).set "t_step_save" vt ∧
      (∀ m a, o.num "black_hole_mass" = .ok m → o.num "black_hole_spin" = .ok a → lt ((m - a) * (m + a)) 0 = true → vR = .cplx) := by
  unfold set_derived_params at h
  obtain ⟨m, hm, h⟩ := exec_bind_ok h
  obtain ⟨a, ha, h⟩ := exec_bind_ok h
  dsimp only at h
  obtain ⟨r0, -, h⟩ := exec_bind_ok h
  obtain ⟨r1, -, h⟩ := exec_bind_ok h
  obtain ⟨R, hR, h⟩ := exec_bind_ok h
  obtain ⟨cl, -, h⟩ := exec_bind_ok h
  obtain ⟨dt, -, h⟩ := exec_bind_ok h
  obtain ⟨T, -, h⟩ := exec_bind_ok h
  obtain ⟨q, -, h⟩ := exec_bind_ok h
  obtain ⟨nt, -, h⟩ := exec_bind_ok h
  obtain ⟨num, -, h⟩ := exec_bind_ok h
  obtain ⟨ts, -, h⟩ := exec_bind_ok h
  injection h with h
  refine ⟨_, _, _, _, _, _, _, _, h.symm, ?_⟩
  intro m' a' hm' ha' hlt
  rw [hm] at hm'; injection hm' with hm'
  rw [ha] at ha'; injection ha' with ha'
  subst hm' ha'
  unfold rminOf at hR
  rw [hlt] at hR
  simp only [Bool.not_true, Bool.false_eq_true, if_false] at hR
  obtain ⟨x, -, hR⟩ := exec_bind_ok hR
  injection hR with hR
  exact hR.symm

theorem derived_get {o1 : Obj α} (h : set_derived_params V o = .ok o1) {n : String} (hn : n ∉ derivedNames) : o1.get n = o.get n := by
  obtain ⟨vh, vl, vu, vR, vM, vd, vn, vt, rfl, -⟩ := derived_form h
  simp only [derivedNames, List.mem_cons, List.not_mem_nil, or_false, not_or] at hn
  obtain ⟨h1, h2, h3, h4, h5, h6, h7, h8⟩ := hn
  rw [get_set_ne h8, get_set_ne h7, get_set_ne h6, get_set_ne h5, get_set_ne h4, get_set_ne h3, get_set_ne h2, get_set_ne h1]

theorem choose_form {o1 o2 : Obj α} {dir : List Char} (h : choose_output_dir V o1 = .ok (o2, dir)) :
    ∃ stem, o2 = (o1.set "output_stem" (.str stem)).set "output_dir" (.str dir) ∧
      (o1.get "computer" = .ok (.str "home".toList) → dir = V.home ++ "/Output".toList ++ stem) ∧
      ∀ s, o1.get "output_dir" = .ok (.str s) → stem = s := by
  unfold choose_output_dir at h
  obtain ⟨stem, hs, h⟩ := exec_bind_ok h
  obtain ⟨root, hr, h⟩ := exec_bind_ok h
  injection h with h
  injection h with h1 h2
  subst h2
  refine ⟨stem, h1.symm, ?_, ?_⟩
  · intro hh
    unfold rootName at hr
    rw [get_set_ne (by decide), hh, ok_bind, if_pos isHome_home] at hr
    injection hr with hr
    rw [← hr]
  · intro s hs'
    unfold stemName at hs
    rw [hs', ok_bind] at hs
    injection hs with hs
    exact hs.symm

theorem choose_get {o1 o2 : Obj α} {dir : List Char} (h : choose_output_dir V o1 = .ok (o2, dir)) {n : String} (h1 : n ≠ "output_stem")
    (h2 : n ≠ "output_dir") : o2.get n = o1.get n := by
  obtain ⟨stem, rfl, -⟩ := choose_form h
  rw [get_set_ne h2, get_set_ne h1]

/-- The directory chosen. -/
theorem choose_eq {dir : List Char} (h : DirOf V o dir) :
    ∃ stem, StemOf V o stem ∧ choose_output_dir V o = .ok ((o.set "output_stem" (.str stem)).set "output_dir" (.str dir), dir) := by
  obtain ⟨stem, hs, hd⟩ := h
  refine ⟨stem, hs, ?_⟩
  have e1 : stemName V o = .ok stem := by
    unfold stemName
    rcases hs with hs | ⟨hs, m, s, nx, nl, nm, hm, hsp, hnx, hnl, hnm, rfl⟩
    · rw [hs, ok_bind]
      rfl
    · rw [hs, ok_bind]
      dsimp only
      rw [hm, ok_bind, hsp, ok_bind, hnx, ok_bind, hnl, ok_bind, hnm, ok_bind]
      have e1 : "/".toList = ['/'] := rfl
      have e2 : "_".toList = ['_'] := rfl
      rw [e1, e2]
      simp only [List.append_assoc, List.cons_append, List.nil_append]
  unfold choose_output_dir
  rw [e1, ok_bind]
  dsimp only
  unfold rootName
  rw [get_set_ne (by decide)]
  rcases hd with ⟨hc, rfl⟩ | ⟨c, s, hc, hne, hos, rfl⟩
  · rw [hc, ok_bind, if_pos isHome_home, ok_bind]
  · rw [hc, ok_bind, if_neg (by simp only [PyObj.isHome, beq_iff_eq]; exact hne), get_set_ne (by decide), hos, ok_bind]
    simp only [PyObj.toStr]
    rw [ok_bind]

theorem dirOf_congr {o1 : Obj α} {dir : List Char} (h : DirOf V o dir)
    (he : ∀ n ∈ ["output_dir", "black_hole_mass", "black_hole_spin", "nx", "nl", "nm", "computer", "out_stem"], o1.get n = o.get n) :
    DirOf V o1 dir := by
  obtain ⟨stem, hs, hd⟩ := h
  refine ⟨stem, ?_, ?_⟩
  · unfold StemOf
    rw [he _ (by decide), he _ (by decide), he _ (by decide), he _ (by decide), he _ (by decide), he _ (by decide)]
    exact hs
  · rw [he _ (by decide), he _ (by decide)]
    exact hd

/-- A launch either stops before it has done anything, or makes a new directory and goes on there. -/
theorem launch_cases (V : PyEnv α) (X : Machine α) (o : Obj α) (w : World) :
    (launch_run V X o w).world = w ∧ (launch_run V X o w).solver = none ∧ (∃ e, (launch_run V X o w).obj = .error e) ∨
    ∃ o1 o2 dir w1, set_derived_params V o = .ok o1 ∧ choose_output_dir V o1 = .ok (o2, dir) ∧ w.makedirs dir = .ok w1 ∧
      ((launch_run V X o w) = failed w1 .exc ∨ ∃ r w2, o2.get "recompile" = .ok r ∧
        (if r.isTrue then then_recompile X o2 w1 else .ok w1) = .ok w2 ∧
        launch_run V X o w = start V X dir (o2.set "parameter_file" (.str "params.txt".toList))
          (w2.put (dir ++ "/params.txt".toList) (paramsText V (o2.set "parameter_file" (.str "params.txt".toList))))) := by
  unfold launch_run
  cases h1 : set_derived_params V o with
  | error e => exact Or.inl ⟨rfl, rfl, e, rfl⟩
  | ok o1 =>
    dsimp only
    cases h2 : choose_output_dir V o1 with
    | error e => exact Or.inl ⟨rfl, rfl, e, rfl⟩
    | ok od =>
      obtain ⟨o2, dir⟩ := od
      dsimp only
      cases h3 : w.makedirs dir with
      | error e => exact Or.inl ⟨rfl, rfl, e, rfl⟩
      | ok w1 =>
        right
        refine ⟨o1, o2, dir, w1, rfl, h2, h3, ?_⟩
        dsimp only
        cases h4 : o2.get "recompile" with
        | error e =>
          left
          unfold Obj.get at h4
          split at h4
          · cases h4
          · injection h4 with h4
            subst h4
            rfl
        | ok r =>
          dsimp only
          cases h5 : (if r.isTrue then then_recompile X o2 w1 else .ok w1) with
          | error e =>
            left
            dsimp only
            split at h5
            · unfold then_recompile at h5
              cases h6 : o2.get "bin_name" with
              | error e' =>
                rw [h6] at h5
                injection h5 with h5
                subst h5
                unfold Obj.get at h6
                split at h6
                · cases h6
                · injection h6 with h6
                  subst h6
                  rfl
              | ok b =>
                rw [h6, ok_bind] at h5
                cases b <;> simp only [PyObj.toStr] at h5 <;> first | (injection h5 with h5; subst h5; rfl) | cases h5
            · cases h5
          | ok w2 => exact Or.inr ⟨r, w2, rfl, h5, rfl⟩

theorem makedirs_form {w1 : World} {dir : List Char} (h : w.makedirs dir = .ok w1) :
    w.dirs dir = false ∧ w.files dir = none ∧ w1.files = w.files ∧ w1.dirs = fun q => ancestorOrSelf q dir || w.dirs q := by
  unfold World.makedirs at h
  split at h
  · cases h
  · rename_i hc
    injection h with h
    simp only [Bool.or_eq_true, not_or, Bool.not_eq_true, Option.isSome_eq_false_iff, Option.isNone_iff_eq_none] at hc
    exact ⟨hc.1.1, hc.1.2, by rw [← h], by rw [← h]⟩

/-- The test `v==True` of the launcher. -/
theorem isTrue_iff {v : PyObj α} : v.isTrue = true ↔ EqTrue v := by
  unfold EqTrue
  cases v <;> simp [PyObj.isTrue]

theorem isTrue_false {v : PyObj α} (h : ¬ EqTrue v) : v.isTrue = false := by
  cases e : v.isTrue
  · rfl
  · exact absurd (isTrue_iff.1 e) h

/-- What a launch without recompilation does to the files. -/
theorem launch_world (hr : ∀ r, o.get "recompile" = .ok r → ¬ EqTrue r) (hp : PlainBin o) :
    (launch_run V X o w).world = w ∨ ∃ dir, w.dirs dir = false ∧ w.files dir = none ∧
      (∀ q, ¬ In dir q → (launch_run V X o w).world.files q = w.files q) ∧
      (launch_run V X o w).world.dirs = fun q => ancestorOrSelf q dir || w.dirs q := by
  rcases launch_cases V X o w with ⟨h, -⟩ | ⟨o1, o2, dir, w1, h1, h2, h3, h4⟩
  · exact Or.inl h
  right
  obtain ⟨hd, hf, ef, ed⟩ := makedirs_form h3
  refine ⟨dir, hd, hf, ?_⟩
  rcases h4 with h4 | ⟨r, w2, h5, h6, h7⟩
  · rw [h4]
    show (∀ q, _ → w1.files q = _) ∧ w1.dirs = _
    rw [ef, ed]
    exact ⟨fun _ _ => rfl, rfl⟩
  · have hrt : r.isTrue = false := by
      apply isTrue_false
      apply hr
      rw [← h5, choose_get h2 (by decide) (by decide), derived_get h1 (by decide)]
    rw [hrt] at h6
    simp only [Bool.false_eq_true, if_false] at h6
    injection h6 with h6
    subst h6
    rw [h7]
    have hp' : PlainBin (o2.set "parameter_file" (.str "params.txt".toList)) := by
      intro b hb
      apply hp
      rw [← hb, get_set_ne (by decide), choose_get h2 (by decide) (by decide), derived_get h1 (by decide)]
    refine ⟨fun q hq => ?_, ?_⟩
    · rw [(start_world hp').1 q hq, ← ef]
      exact put_in (r := "params.txt".toList) (by decide) hq
    · rw [(start_world hp').2]
      exact ed

theorem in_parent {dir q d r : List Char} (h : In dir q) (e : q = d ++ '/' :: r) : ancestorOrSelf d dir = true := by
  obtain ⟨r', h1, h2⟩ := h
  rw [h1] at e
  unfold ancestorOrSelf
  rw [Bool.or_eq_true, beq_iff_eq, List.isPrefixOf_iff_prefix]
  rcases List.append_eq_append_iff.mp e with ⟨a, ha, hb⟩ | ⟨a, ha, hb⟩
  · cases a with
    | nil => left; simpa using ha
    | cons c a =>
      rw [List.cons_append] at hb
      injection hb with hb1 hb2
      exact absurd (by rw [hb2]; simp) h2
  · cases a with
    | nil => left; simpa using ha.symm
    | cons c a =>
      rw [List.cons_append] at hb
      injection hb with hb1 hb2
      right
      subst hb1
      exact ⟨a, by rw [ha]; simp⟩

theorem ancestor_parent {dir d r : List Char} (h : ancestorOrSelf (d ++ '/' :: r) dir = true) : ancestorOrSelf d dir = true := by
  unfold ancestorOrSelf at h ⊢
  rw [Bool.or_eq_true, beq_iff_eq, List.isPrefixOf_iff_prefix] at h ⊢
  right
  rcases h with h | ⟨t, h⟩
  · exact ⟨r, by rw [← h]; simp⟩
  · exact ⟨r ++ '/' :: t, by rw [← h]; simp⟩

/-- **C85.** Whatever the attributes of the object and however the launch ends: it leaves every existing file and directory as it is, and
what it writes is in a single directory that did not exist before.  (Not if the user asks for recompilation, which runs `make`, or gives the binary a
name with characters special to the shell.) -/
theorem C85_existing_files_untouched (hT : w.Tree) (hr : ∀ r, o.get "recompile" = .ok r → ¬ EqTrue r) (hp : PlainBin o) :
    (∀ q, (w.files q).isSome → (launch_run V X o w).world.files q = w.files q) ∧
    (∀ q, w.dirs q = true → (launch_run V X o w).world.dirs q = true) ∧
    ((launch_run V X o w).world = w ∨ ∃ dir, w.dirs dir = false ∧ w.files dir = none ∧
      ∀ q, (launch_run V X o w).world.files q ≠ w.files q → In dir q) := by
  rcases launch_world (V := V) (X := X) (w := w) hr hp with h | ⟨dir, hd, hf, h1, h2⟩
  · rw [h]
    exact ⟨fun _ _ => rfl, fun _ h => h, Or.inl rfl⟩
  · refine ⟨fun q hq => ?_, fun q hq => ?_, Or.inr ⟨dir, hd, hf, fun q hq => ?_⟩⟩
    · apply h1
      rintro ⟨r, rfl, -⟩
      rw [hT.files dir r hq] at hd
      cases hd
    · rw [h2]
      simp only [hq, Bool.or_true]
    · by_contra hn
      exact hq (h1 q hn)

theorem launch_tree (hT : w.Tree) (hr : ∀ r, o.get "recompile" = .ok r → ¬ EqTrue r) (hp : PlainBin o) : (launch_run V X o w).world.Tree := by
  rcases launch_world (V := V) (X := X) (w := w) hr hp with h | ⟨dir, hd, hf, h1, h2⟩
  · rw [h]; exact hT
  · refine ⟨fun d r hs => ?_, fun d r hs => ?_⟩
    · rw [h2]
      dsimp only
      by_cases hin : In dir (d ++ '/' :: r)
      · rw [in_parent hin rfl, Bool.true_or]
      · rw [h1 _ hin] at hs
        rw [hT.files d r hs, Bool.or_true]
    · rw [h2] at hs ⊢
      dsimp only at hs ⊢
      rw [Bool.or_eq_true] at hs ⊢
      rcases hs with hs | hs
      · exact Or.inl (ancestor_parent hs)
      · exact Or.inr (hT.dirs d r hs)

/-- **C85.** Along any sequence of launches the results of earlier ones stay as they are. -/
theorem C85_earlier_runs_kept (L : List (PyEnv α × Machine α × Obj α)) (hr : ∀ l ∈ L, ∀ r, l.2.2.get "recompile" = .ok r → ¬ EqTrue r)
    (hp : ∀ l ∈ L, PlainBin l.2.2) (hT : w.Tree) : (launches L w).Tree ∧ ∀ q, (w.files q).isSome → (launches L w).files q = w.files q := by
  induction L generalizing w with
  | nil => exact ⟨hT, fun _ _ => rfl⟩
  | cons l L ih =>
    have h0 := hr l List.mem_cons_self
    have hp0 := hp l List.mem_cons_self
    have h1 := C85_existing_files_untouched (V := l.1) (X := l.2.1) (o := l.2.2) hT h0 hp0
    have h2 := ih (w := (launch_run l.1 l.2.1 l.2.2 w).world) (fun l hl => hr l (List.mem_cons_of_mem _ hl))
      (fun l hl => hp l (List.mem_cons_of_mem _ hl)) (launch_tree hT h0 hp0)
    refine ⟨h2.1, fun q hq => ?_⟩
    have e := h1.1 q hq
    have := h2.2 q (by rw [e]; exact hq)
    rw [e] at this
    exact this

/-- **C85.** If the directory of the run already exists the launch raises an exception and does nothing. -/
theorem C85_existing_directory_refused {dir : List Char} (hd : DirOf V o dir) (hex : w.dirs dir = true ∨ (w.files dir).isSome) :
    (launch_run V X o w).world = w ∧ (launch_run V X o w).solver = none ∧ ∃ e, (launch_run V X o w).obj = .error e := by
  rcases launch_cases V X o w with h | ⟨o1, o2, dir', w1, h1, h2, h3, h4⟩
  · exact h
  · exfalso
    have hd1 : DirOf V o1 dir := dirOf_congr hd fun n hn => derived_get h1 (by
      intro hm
      simp only [List.mem_cons, List.not_mem_nil, or_false, derivedNames] at hn hm
      rcases hn with rfl | rfl | rfl | rfl | rfl | rfl | rfl | rfl <;> simp at hm)
    obtain ⟨stem, -, hc⟩ := choose_eq hd1
    rw [h2] at hc
    injection hc with hc
    injection hc with hc1 hc2
    subst hc2
    obtain ⟨ha, hb, -⟩ := makedirs_form h3
    rcases hex with hex | hex
    · rw [ha] at hex; cases hex
    · rw [hb] at hex; cases hex

/-- the launch from the copying of the binary on, when what it needs is there -/
theorem start_ready {dir bin prog : List Char} {tv c : PyObj α} (hbn : o.get "bin_name" = .ok (.str bin))
    (hprog : w.files (V.home ++ "/Bin/".toList ++ bin) = some prog) (hb : '/' ∉ bin) (htv : o.get "time_it" = .ok tv)
    (hc : o.get "computer" = .ok c) : start V X dir o w
      = if c.isHome then start.here V X dir ((o.set "output_file" (.str "out.txt".toList)).set "run_str" (.str (runStr tv.truthy bin)))
          (w.put (dir ++ '/' :: bin) prog) bin (runStr tv.truthy bin)
        else start.submit V dir ((o.set "output_file" (.str "out.txt".toList)).set "run_str" (.str (runStr tv.truthy bin)))
          (w.put (dir ++ '/' :: bin) prog) bin (runStr tv.truthy bin) := by
  unfold start
  rw [hbn]
  have e : ((Except.ok (PyObj.str bin) : Exec (PyObj α)) >>= PyObj.toStr) = .ok bin := rfl
  rw [e]
  dsimp only
  rw [hprog]
  dsimp only
  rw [if_neg hb, get_set_ne (by decide), htv]
  dsimp only
  rw [get_set_ne (by decide), get_set_ne (by decide), hc]

/-- ... on the local computer -/
theorem here_ready {dir bin : List Char} {t : Bool} {lv th : PyObj α} (hlv : o.get "num_omp_levels" = .ok lv) (hth : o.get "num_threads" = .ok th)
    (hb : Plain bin) (hf : (w.files (dir ++ '/' :: bin)).isSome) : start.here V X dir o w bin (runStr t bin)
      = ⟨(runHere X dir bin (w.chmod (dir ++ '/' :: bin))).1, .ok o, (runHere X dir bin (w.chmod (dir ++ '/' :: bin))).2,
        [("OMP_NUM_THREADS".toList, V.str th), ("OMP_MAX_ACTIVE_LEVELS".toList, V.str lv)], none⟩ := by
  unfold start.here
  rw [hlv, hth]
  dsimp only
  rw [home_run hb]
  exact hf

/-- The ways a launch that gets as far as copying the binary may end. -/
theorem start_cases (V : PyEnv α) (X : Machine α) (dir : List Char) (o : Obj α) (w : World) :
    (∃ w' e, start V X dir o w = failed w' e) ∨ ∃ bin prog tv, o.get "bin_name" = .ok (.str bin) ∧
      w.files (V.home ++ "/Bin/".toList ++ bin) = some prog ∧ '/' ∉ bin ∧ o.get "time_it" = .ok tv ∧
      ∃ o', o' = (o.set "output_file" (.str "out.txt".toList)).set "run_str" (.str (runStr tv.truthy bin)) ∧
      ((∃ lv th, o'.get "num_omp_levels" = .ok lv ∧ o'.get "num_threads" = .ok th ∧
          start V X dir o w = start.here V X dir o' (w.put (dir ++ '/' :: bin) prog) bin (runStr tv.truthy bin)) ∨
        start V X dir o w = start.submit V dir o' (w.put (dir ++ '/' :: bin) prog) bin (runStr tv.truthy bin)) := by
  cases hbn : o.get "bin_name" >>= PyObj.toStr with
  | error e =>
    left
    refine ⟨w, e, ?_⟩
    unfold start
    rw [hbn]
  | ok bin =>
    have hb' : o.get "bin_name" = .ok (.str bin) := by
      obtain ⟨v, hv, hb⟩ := exec_bind_ok hbn
      cases v <;> simp only [PyObj.toStr] at hb <;> first | (injection hb with hb; subst hb; exact hv) | cases hb
    cases hp : w.files (V.home ++ "/Bin/".toList ++ bin) with
    | none =>
      left
      refine ⟨w, .exc, ?_⟩
      unfold start
      rw [hbn]
      dsimp only
      rw [hp]
    | some prog =>
      by_cases hs : '/' ∈ bin
      · left
        refine ⟨w, .exc, ?_⟩
        unfold start
        rw [hbn]
        dsimp only
        rw [hp]
        dsimp only
        rw [if_pos hs]
      cases htv : o.get "time_it" with
      | error e =>
        left
        refine ⟨w.put (dir ++ '/' :: bin) prog, e, ?_⟩
        unfold start
        rw [hbn]
        dsimp only
        rw [hp]
        dsimp only
        rw [if_neg hs, get_set_ne (by decide), htv]
      | ok tv =>
        cases hc : o.get "computer" with
        | error e =>
          left
          refine ⟨w.put (dir ++ '/' :: bin) prog, e, ?_⟩
          unfold start
          rw [hbn]
          dsimp only
          rw [hp]
          dsimp only
          rw [if_neg hs, get_set_ne (by decide), htv]
          dsimp only
          rw [get_set_ne (by decide), get_set_ne (by decide), hc]
        | ok c =>
          have h := start_ready (X := X) (dir := dir) hb' hp hs htv hc
          by_cases hh : c.isHome = true
          · rw [if_pos hh] at h
            obtain ⟨o', ho'⟩ : ∃ o', o' = (o.set "output_file" (.str "out.txt".toList)).set "run_str" (.str (runStr tv.truthy bin)) := ⟨_, rfl⟩
            rw [← ho'] at h
            cases hl : o'.get "num_omp_levels" with
            | error e =>
              left
              refine ⟨w.put (dir ++ '/' :: bin) prog, .exc, ?_⟩
              rw [h]
              unfold start.here
              rw [hl]
            | ok lv =>
              cases ht : o'.get "num_threads" with
              | error e =>
                left
                refine ⟨w.put (dir ++ '/' :: bin) prog, .exc, ?_⟩
                rw [h]
                unfold start.here
                rw [hl, ht]
              | ok th => exact Or.inr ⟨bin, prog, tv, hb', hp, hs, rfl, o', ho', Or.inl ⟨lv, th, hl, ht, h⟩⟩
          · rw [if_neg hh] at h
            exact Or.inr ⟨bin, prog, tv, hb', hp, hs, rfl, _, rfl, Or.inr h⟩

theorem submit_solver {dir : List Char} {bin run : List Char} : (start.submit V dir o w bin run).solver = none := by
  unfold start.submit
  split <;> rfl

/-- **C87.** How the solver ended is not noticed: if it was started at all, the launch returns normally. -/
theorem C87_failure_unnoticed {p : Prog α Unit} (h : (launch_run V X o w).solver = some p) : ∃ o', (launch_run V X o w).obj = .ok o' := by
  rcases launch_cases V X o w with ⟨-, h', -⟩ | ⟨o1, o2, dir, w1, h1, h2, h3, h4⟩
  · rw [h'] at h; cases h
  · rcases h4 with h4 | ⟨r, w2, h5, h6, h7⟩
    · rw [h4] at h; cases h
    · rw [h7] at h ⊢
      rcases start_cases V X dir _ _ with ⟨w', e, hs⟩ | ⟨bin, prog, tv, -, -, -, -, o', -, ⟨lv, th, hl, ht, hs⟩ | hs⟩
      · rw [hs] at h; cases h
      · rw [hs]
        unfold start.here
        rw [hl, ht]
        exact ⟨_, rfl⟩
      · rw [hs, submit_solver] at h
        cases h

/-! ### from the settings to the files -/

theorem dirs_clean {dir : List Char} (hC : Clean V o) (hE : CleanEnv V) (h : DirOf V o dir) :
    '\n' ∉ dir ∧ ∀ stem, StemOf V o stem → '\n' ∉ stem := by
  have at_ : ∀ (n : String) (v : PyObj α), o.get n = .ok v → '\n' ∉ V.str v := fun n v hv => hC.texts _ (Obj.mem_of_get hv)
  have hstem : ∀ stem, StemOf V o stem → '\n' ∉ stem := by
    intro stem hs
    rcases hs with hs | ⟨-, m, s, nx, nl, nm, hm, hsp, hnx, hnl, hnm, rfl⟩
    · exact at_ _ _ hs
    · have hclock : '\n' ∉ V.clock.map (fun c => if c = ':' then '_' else c) := by
        intro hc
        obtain ⟨c, hc1, hc2⟩ := List.mem_map.mp hc
        split at hc2
        · exact absurd hc2 (by decide)
        · exact hE.clock (hc2 ▸ hc1)
      simp only [List.mem_append, not_or]
      exact ⟨⟨⟨⟨⟨⟨⟨⟨⟨⟨⟨⟨⟨⟨⟨by decide, hE.month⟩, by decide⟩, hE.day⟩, by decide⟩, hclock⟩, by decide⟩, at_ _ _ hm⟩, by decide⟩, at_ _ _ hsp⟩,
        by decide⟩, at_ _ _ hnx⟩, by decide⟩, at_ _ _ hnl⟩, by decide⟩, at_ _ _ hnm⟩
  refine ⟨?_, hstem⟩
  obtain ⟨stem, hs, ⟨-, rfl⟩ | ⟨c, s, -, -, hos, rfl⟩⟩ := h
  · simp only [List.mem_append, not_or]
    exact ⟨⟨hE.home, by decide⟩, hstem _ hs⟩
  · simp only [List.mem_append, not_or]
    exact ⟨at_ _ _ hos, hstem _ hs⟩

theorem replay_congr {es : List (Event α)} : ∀ {fs fs' : FS} {q : List Char}, fs q = fs' q → fs.replay es q = fs'.replay es q := by
  induction es with
  | nil => intro fs fs' q h; exact h
  | cons e es ih =>
    intro fs fs' q h
    show (fs.after e).replay es q = (fs'.after e).replay es q
    apply ih
    cases e with
    | create p => simp only [FS.after, h]
    | append p t => simp only [FS.after, h]
    | diag a b c => exact h

theorem replay_untouched {es : List (Event α)} {d : List Char} (hes : ∀ e ∈ es, EvIn d e) {q : List Char} (hq : ¬ CsvIn d q) :
    ∀ fs : FS, fs.replay es q = fs q := by
  induction es with
  | nil => intro fs; rfl
  | cons e es ih =>
    intro fs
    show (fs.after e).replay es q = fs q
    rw [ih fun e he => hes e (List.mem_cons_of_mem _ he)]
    have he := hes e List.mem_cons_self
    cases e with
    | create p => simp only [FS.after]; rw [if_neg (fun e : q = p => hq (by rw [e]; exact he))]
    | append p t => simp only [FS.after]; rw [if_neg (fun e : q = p => hq (by rw [e]; exact he))]
    | diag a b c => rfl

theorem suffix_last {s t r : List Char} {a b : Char} (h : (s ++ [a]) <:+ r) (h' : (t ++ [b]) <:+ r) : a = b := by
  obtain ⟨x, rfl⟩ := h
  obtain ⟨y, hy⟩ := h'
  have := congrArg List.getLast? hy
  simp only [← List.append_assoc, List.getLast?_append, List.getLast?_singleton, Option.some_or, Option.some.injEq] at this
  exact this.symm

theorem not_csv {r : List Char} {t : List Char} {b : Char} (h : (t ++ [b]) <:+ r) (hb : b ≠ 'v') : ¬ ".csv".toList <:+ r := fun hc =>
  hb (suffix_last (s := ".cs".toList) (a := 'v') hc h).symm

section
variable {toInt : α → Nat} {S : Settings α} {dir bin : List Char} {E : Env α}

theorem makedirs_eq (hn : w.dirs dir = false) (hf : ∀ d, (d = dir ∨ ∃ r, dir = d ++ '/' :: r) → w.files d = none) :
    w.makedirs dir = .ok { w with dirs := fun q => ancestorOrSelf q dir || w.dirs q } := by
  unfold World.makedirs
  rw [if_neg]
  rw [hn, hf dir (Or.inl rfl)]
  simp only [Option.isSome_none, Bool.or_self, Bool.false_or, List.any_eq_true, Bool.and_eq_true, beq_iff_eq, List.mem_range, not_exists,
    not_and, Bool.not_eq_true, Option.isSome_eq_false_iff, Option.isNone_iff_eq_none]
  intro k hk hc
  apply hf
  right
  refine ⟨dir.drop (k + 1), ?_⟩
  have : dir[k] = '/' := by
    rw [List.getElem?_eq_getElem hk] at hc
    injection hc
  conv_lhs => rw [← List.take_append_drop k dir, List.drop_eq_getElem_cons hk, this]

/-- The object whose attributes are written. -/
theorem launch_object (hD : Describes V X.stod o S) (hR : Regular V X.stod toInt S) (hC : Clean V o) (hE : CleanEnv V) (hd : DirOf V o dir) :
    ∃ o2, (set_derived_params V o >>= choose_output_dir V) = .ok (o2, dir) ∧ o2.get "output_dir" = .ok (.str dir) ∧
      (∀ n, n ∉ derivedNames → n ≠ "output_dir" → n ≠ "output_stem" → o2.get n = o.get n) ∧
      ∀ nd, Params.ctor X.stod nd (some (paramsText V (o2.set "parameter_file" (.str "params.txt".toList)))) = .ok (params toInt S) := by
  obtain ⟨clv, hcl, hcr⟩ := hD.cl
  have h1 := derived_eq hcl hD hR
  obtain ⟨o1, ho1⟩ : ∃ o1, o1 = derivedObj o (horizon S.mass S.spin) (params toInt S).rl (params toInt S).ru (params toInt S).Rmin
      (params toInt S).dt clv (params toInt S).nt (params toInt S).t_step_save := ⟨_, rfl⟩
  rw [← ho1] at h1
  have hget : ∀ n, n ∉ derivedNames → o1.get n = o.get n := fun n hn => derived_get h1 hn
  have hd1 : DirOf V o1 dir := dirOf_congr hd fun n hn => hget n (by
    intro hm
    simp only [List.mem_cons, List.not_mem_nil, or_false, derivedNames] at hn hm
    rcases hn with rfl | rfl | rfl | rfl | rfl | rfl | rfl | rfl <;> simp at hm)
  have hC1 : Clean V o1 := by
    rw [ho1]
    unfold derivedObj
    have hi : ∀ n : Int, '\n' ∉ V.str (.int n) := fun n hn => absurd (toStr_white n _ hn) (by decide)
    have hcl' : '\n' ∉ V.str clv := hC.texts _ (Obj.mem_of_get hcl)
    have hf : ∀ x : α, '\n' ∉ V.str (.flt x) := hE.fmt
    exact (((((((hC.set (by decide) (by decide) (hf _)).set (by decide) (by decide) (hf _)).set (by decide) (by decide) (hf _)).set
      (by decide) (by decide) (hf _)).set (by decide) (by decide) hcl').set (by decide) (by decide) (hf _)).set (by decide) (by decide)
      (hi _)).set (by decide) (by decide) (hi _)
  have hD1 : Describes V X.stod o1 S := by
    rw [ho1]
    unfold derivedObj
    exact (((((((hD.set (by decide) _).set (by decide) _).set (by decide) _).set (by decide) _).set (by decide) _).set (by decide) _).set
      (by decide) _).set (by decide) _
  obtain ⟨stem, hst, hc⟩ := choose_eq hd1
  have hstem := (dirs_clean hC1 hE hd1).2 stem hst
  have hdir := (dirs_clean hC1 hE hd1).1
  refine ⟨_, by rw [h1, ok_bind, hc], get_set_self _ _, fun n h1 h2 h3 => by rw [get_set_ne h2, get_set_ne h3, hget n h1], fun nd => ?_⟩
  have hC3 : Clean V (((o1.set "output_stem" (.str stem)).set "output_dir" (.str dir)).set "parameter_file" (.str "params.txt".toList)) :=
    ((hC1.set (v := .str stem) (by decide) (by decide) hstem).set (v := .str dir) (by decide) (by decide) hdir).set (by decide) (by decide) (by
      show '\n' ∉ "params.txt".toList
      decide)
  have hD3 : Describes V X.stod (((o1.set "output_stem" (.str stem)).set "output_dir" (.str dir)).set "parameter_file"
      (.str "params.txt".toList)) S := ((hD1.set (by decide) _).set (by decide) _).set (by decide) _
  have g : ∀ n, n ≠ "parameter_file" → n ≠ "output_dir" → n ≠ "output_stem" →
      (((o1.set "output_stem" (.str stem)).set "output_dir" (.str dir)).set "parameter_file" (.str "params.txt".toList)).get n = o1.get n := by
    intro n a b c
    rw [get_set_ne a, get_set_ne b, get_set_ne c]
  refine ctor_eq (clv := clv) hC3 hD3 hR ?_ ?_ ?_ ?_ ?_ ?_ ?_ ?_ nd
  · rw [g _ (by decide) (by decide) (by decide), hget _ (by decide), hcl]
  all_goals rw [g _ (by decide) (by decide) (by decide), ho1]; unfold derivedObj; simp only [Obj.get_set]; rfl

end

section
variable {toInt : α → Nat} {S : Settings α} {dir bin : List Char} {E : Env α}

theorem run_suffix {r : List Char} (h : ".run".toList <:+ r) : r ≠ "params.txt".toList ∧ r ≠ "out.txt".toList ∧ ¬ ".csv".toList <:+ r := by
  have h' : (".ru".toList ++ ['n']) <:+ r := h
  refine ⟨?_, ?_, not_csv h' (by decide)⟩
  · rintro rfl
    exact absurd (suffix_last (s := "params.tx".toList) (a := 't') (List.suffix_refl _) h') (by decide)
  · rintro rfl
    exact absurd (suffix_last (s := "out.tx".toList) (a := 't') (List.suffix_refl _) h') (by decide)

/-- what running the solver in `dir` does to the files there -/
theorem runHere_files {P : ParamRec α} {prog text : List Char} (hb : ".run".toList <:+ bin) (hbin : w.files (dir ++ '/' :: bin) = some prog)
    (hbuild : X.build prog = some E) (hpar : w.files (dir ++ '/' :: "params.txt".toList) = some text)
    (hctor : Params.ctor X.stod E.ndebug (some text) = .ok P) :
    (runHere X dir bin w).2 = some (Main.run E X.io X.junk ".".toList P) ∧
    (∀ r, ¬ ".csv".toList <:+ r → r ≠ "out.txt".toList → (runHere X dir bin w).1.files (dir ++ '/' :: r) = w.files (dir ++ '/' :: r)) ∧
    (runHere X dir bin w).1.files (dir ++ "/out.txt".toList) = some (X.stdout (Main.run E X.io X.junk ".".toList P).events) ∧
    ∀ r, r ≠ "out.txt".toList → w.files (dir ++ '/' :: r) = none → (runHere X dir bin w).1.files (dir ++ '/' :: r)
      = FS.replay (fun _ => none) (Main.run E X.io X.junk ".".toList P).events ("./".toList ++ r) := by
  obtain ⟨hb1, hb2, hb3⟩ := run_suffix hb
  have inj : ∀ r r' : List Char, r ≠ r' → dir ++ '/' :: r ≠ dir ++ '/' :: r' := by
    intro r r' h e
    rw [List.append_right_inj] at e
    injection e with _ e
    exact h e
  obtain ⟨w3, hw3⟩ : ∃ w3, w3 = w.put (dir ++ "/out.txt".toList) [] := ⟨_, rfl⟩
  have o_ : ("/out.txt".toList : List Char) = '/' :: "out.txt".toList := rfl
  have hw3r : ∀ r, r ≠ "out.txt".toList → w3.files (dir ++ '/' :: r) = w.files (dir ++ '/' :: r) := by
    intro r hr
    rw [hw3, o_, put_files_ne (inj _ _ hr)]
  have hmain : Main.main E X.io X.stod X.junk (fun q => w3.files (resolve dir q)) ["params.txt".toList, ".".toList]
      = Main.run E X.io X.junk ".".toList P := by
    apply main_eq_run
    have : resolve dir "params.txt".toList = dir ++ '/' :: "params.txt".toList := rfl
    rw [this, hw3r _ (by decide), hpar]
    exact hctor
  have hhere : runHere X dir bin w
      = (((Main.run E X.io X.junk ".".toList P).events.foldl (World.event dir) w3).put (dir ++ "/out.txt".toList)
          (X.stdout (Main.run E X.io X.junk ".".toList P).events),
        some (Main.run E X.io X.junk ".".toList P)) := by
    unfold runHere
    dsimp only
    rw [← hw3, hw3r _ hb2, hbin, Option.bind_some, hbuild]
    dsimp only
    rw [hmain]
  have hloc := (run_loc (E := E) (io := X.io) (J := X.junk) (dir := ".".toList) (P := P)).events
  have hfold := foldl_event (dir := dir) hloc w3 (fun q => w3.files (resolve dir q)) (fun r => rfl)
  have hkeep : ∀ r, ¬ ".csv".toList <:+ r → FS.replay (fun q => w3.files (resolve dir q))
      (Main.run E X.io X.junk ".".toList P).events ('.' :: '/' :: r) = w3.files (dir ++ '/' :: r) := by
    intro r hr
    refine (replay_untouched hloc (q := '.' :: '/' :: r) ?_ _).trans rfl
    rintro ⟨r', e, -, hs⟩
    have : r = r' := by
      have e' : '.' :: '/' :: r = '.' :: '/' :: r' := e
      injection e' with _ e'
      injection e'
    exact hr (this ▸ hs)
  rw [hhere]
  refine ⟨rfl, ?_, ?_, ?_⟩
  · intro r hr ho
    dsimp only
    rw [o_, put_files_ne (inj _ _ ho), hfold.1, hkeep _ hr, hw3r _ ho]
  · dsimp only
    rw [put_files_self]
  · intro r ho hn
    dsimp only
    rw [o_, put_files_ne (inj _ _ ho), hfold.1]
    show _ = FS.replay (fun _ => none) _ ('.' :: '/' :: r)
    apply replay_congr
    show w3.files (dir ++ '/' :: r) = none
    rw [hw3r _ ho, hn]

/-- a launch for which everything is ready, up to the copying of the binary: the object `o2` and the files `w2` it goes on with -/
theorem launch_ready {o1 o2 : Obj α} (hT : w.Tree) (hS : Ready V X o w dir bin E) (h1 : set_derived_params V o = .ok o1)
    (h2 : choose_output_dir V o1 = .ok (o2, dir)) :
    ∃ w2 prog, launch_run V X o w = start V X dir (o2.set "parameter_file" (.str "params.txt".toList)) w2 ∧
      w.files (V.home ++ "/Bin/".toList ++ bin) = some prog ∧ X.build prog = some E ∧
      w2.files (V.home ++ "/Bin/".toList ++ bin) = some prog ∧
      w2.files (dir ++ '/' :: "params.txt".toList) = some (paramsText V (o2.set "parameter_file" (.str "params.txt".toList))) ∧
      (∀ r, r ≠ "params.txt".toList → w2.files (dir ++ '/' :: r) = none) := by
  obtain ⟨rc, hrc, hrt'⟩ := hS.recompile
  have hrt := isTrue_false hrt'
  obtain ⟨prog, hprog, hbuild⟩ := hS.binary
  obtain ⟨w1, hw1⟩ : ∃ w1 : World, w1 = { w with dirs := fun q => ancestorOrSelf q dir || w.dirs q } := ⟨_, rfl⟩
  have hf1 : w1.files = w.files := by rw [hw1]
  have h3 := makedirs_eq hS.new hS.no_file
  rw [← hw1] at h3
  obtain ⟨w2, hw2⟩ : ∃ w2, w2 = w1.put (dir ++ "/params.txt".toList) (paramsText V (o2.set "parameter_file" (.str "params.txt".toList))) :=
    ⟨_, rfl⟩
  have inj : ∀ r r' : List Char, r ≠ r' → dir ++ '/' :: r ≠ dir ++ '/' :: r' := by
    intro r r' h e
    rw [List.append_right_inj] at e
    injection e with _ e
    exact h e
  have fresh : ∀ r, w.files (dir ++ '/' :: r) = none := by
    intro r
    cases hh : w.files (dir ++ '/' :: r) with
    | none => rfl
    | some t =>
      have := hT.files dir r (by rw [hh]; rfl)
      rw [hS.new] at this
      cases this
  have p_ : ("/params.txt".toList : List Char) = '/' :: "params.txt".toList := rfl
  refine ⟨w2, prog, ?_, hprog, hbuild, ?_, ?_, fun r hr => ?_⟩
  · unfold launch_run
    rw [h1]
    dsimp only
    rw [h2]
    dsimp only
    rw [h3]
    dsimp only
    rw [choose_get h2 (by decide) (by decide), derived_get h1 (by decide), hrc]
    dsimp only
    rw [hrt, hw2]
    rfl
  · rw [hw2, put_files_ne, hf1, hprog]
    intro e
    have := fresh "params.txt".toList
    rw [← p_, ← e, hprog] at this
    cases this
  · rw [hw2, p_, put_files_self]
  · rw [hw2, p_, put_files_ne (inj _ _ hr), hf1]
    exact fresh r

/-- **C86.** From the settings to the run.  An object whose attributes say what the settings `S` say, with a new directory and a built
binary: the launch returns, the solver has been run in the directory with exactly the parameters derived from `S` and with the object's number of
threads, the directory has the parameter file, a copy of the binary and the standard output, and besides these exactly what the solver writes when it
starts in an empty directory. -/
theorem C86_end_to_end (hT : w.Tree) (hh : o.get "computer" = .ok (.str "home".toList)) (hS : Ready V X o w dir bin E)
    (hD : Describes V X.stod o S) (hR : Regular V X.stod toInt S) (hC : Clean V o) (hE : CleanEnv V) :
    ∃ o', (launch_run V X o w).obj = .ok o' ∧ o'.get "output_dir" = .ok (.str dir) ∧
      (launch_run V X o w).solver = some (Main.run E X.io X.junk ".".toList (params toInt S)) ∧
      (∀ n, o.get "num_threads" = .ok n → ("OMP_NUM_THREADS".toList, V.str n) ∈ (launch_run V X o w).env) ∧
      (∀ n, o.get "num_omp_levels" = .ok n → ("OMP_MAX_ACTIVE_LEVELS".toList, V.str n) ∈ (launch_run V X o w).env) ∧
      (∀ nd, Params.ctor X.stod nd ((launch_run V X o w).world.files (dir ++ "/params.txt".toList)) = .ok (params toInt S)) ∧
      (launch_run V X o w).world.files (dir ++ '/' :: bin) = w.files (V.home ++ "/Bin/".toList ++ bin) ∧
      (launch_run V X o w).world.files (dir ++ "/out.txt".toList)
        = some (X.stdout (Main.run E X.io X.junk ".".toList (params toInt S)).events) ∧
      ∀ r, r ∉ ["params.txt".toList, "out.txt".toList, bin] → (launch_run V X o w).world.files (dir ++ '/' :: r)
        = FS.replay (fun _ => none) (Main.run E X.io X.junk ".".toList (params toInt S)).events ("./".toList ++ r) := by
  obtain ⟨o2, h12, hod, hget, hctor⟩ := launch_object hD hR hC hE hS.is_dir
  obtain ⟨o1, h1, h2⟩ := exec_bind_ok h12
  obtain ⟨tv, htv⟩ := hS.time_it
  obtain ⟨lv, hlv⟩ := hS.levels
  obtain ⟨th, hth⟩ := hS.threads
  obtain ⟨hb1, hb2, hb3⟩ := run_suffix hS.bin_run
  obtain ⟨w2, prog, hrun, hprog, hbuild, hprog2, hpar2, hoth2⟩ := launch_ready hT hS h1 h2
  have hst := start_ready (X := X) (dir := dir) (o := o2.set "parameter_file" (.str "params.txt".toList)) (bin := bin) (tv := tv)
    (by rw [get_set_ne (by decide), hget _ (by decide) (by decide) (by decide), hS.bin_name]) hprog2 hS.bin_plain.no_slash
    (by rw [get_set_ne (by decide), hget _ (by decide) (by decide) (by decide), htv])
    (by rw [get_set_ne (by decide), hget _ (by decide) (by decide) (by decide), hh])
  rw [if_pos isHome_home, here_ready (lv := lv) (th := th) (by
    rw [get_set_ne (by decide), get_set_ne (by decide), get_set_ne (by decide), hget _ (by decide) (by decide) (by decide), hlv]) (by
    rw [get_set_ne (by decide), get_set_ne (by decide), get_set_ne (by decide), hget _ (by decide) (by decide) (by decide), hth])
    hS.bin_plain (by rw [put_files_self]; rfl)] at hst
  obtain ⟨w3, hw3⟩ : ∃ w3, w3 = (w2.put (dir ++ '/' :: bin) prog).chmod (dir ++ '/' :: bin) := ⟨_, rfl⟩
  rw [← hw3] at hst
  have inj : ∀ r r' : List Char, r ≠ r' → dir ++ '/' :: r ≠ dir ++ '/' :: r' := by
    intro r r' h e
    rw [List.append_right_inj] at e
    injection e with _ e
    exact h e
  have hw3bin : w3.files (dir ++ '/' :: bin) = some prog := by rw [hw3, chmod_files, put_files_self]
  have hw3par : w3.files (dir ++ '/' :: "params.txt".toList) = some (paramsText V (o2.set "parameter_file" (.str "params.txt".toList))) := by
    rw [hw3, chmod_files, put_files_ne (inj _ _ (Ne.symm hb1)), hpar2]
  obtain ⟨f1, f2, f3, f4⟩ := runHere_files (dir := dir) hS.bin_run hw3bin hbuild hw3par (hctor _)
  rw [hrun, hst]
  refine ⟨_, rfl, ?_, f1, ?_, ?_, ?_, ?_, f3, ?_⟩
  · rw [get_set_ne (by decide), get_set_ne (by decide), get_set_ne (by decide), hod]
  · intro n hn
    rw [hth] at hn
    injection hn with hn
    subst hn
    exact List.mem_cons_self
  · intro n hn
    rw [hlv] at hn
    injection hn with hn
    subst hn
    exact List.mem_cons_of_mem _ List.mem_cons_self
  · intro nd
    show Params.ctor X.stod nd ((runHere X dir bin w3).1.files (dir ++ '/' :: "params.txt".toList)) = _
    rw [f2 _ (by decide) (by decide), hw3par]
    exact hctor nd
  · show (runHere X dir bin w3).1.files (dir ++ '/' :: bin) = _
    rw [f2 _ hb3 hb2, hw3bin, hprog]
  · intro r hr
    simp only [List.mem_cons, List.not_mem_nil, or_false, not_or] at hr
    apply f4 r hr.2.1
    rw [hw3, chmod_files, put_files_ne (inj _ _ hr.2.2), hoth2 r hr.1]

end

section
variable {toInt : α → Nat} {S : Settings α} {dir bin : List Char} {E : Env α}

/-- **C86.** ... so the tables of the run are in the directory: one file per save and quantity, holding exactly the table of the state the solver
reaches after that many steps. -/
theorem C86_tables (hT : w.Tree) (hh : o.get "computer" = .ok (.str "home".toList)) (hS : Ready V X o w dir bin E) (hD : Describes V X.stod o S) (hR : Regular V X.stod toInt S)
    (hC : Clean V o) (hE : CleanEnv V) (hV : Valid E (params toInt S)) (hopen : ∀ nm k, X.io.canOpen (pathOf ".".toList nm k) = true) :
    ∃ g, BuiltGrid E (params toInt S) g ∧ ∃ F Q A B, History (params toInt S) g (stepMem X.junk) F Q A B ∧
      ∃ D tF tD res tv, Derived (params toInt S) g X.io (saveMem X.junk) F Q A B D tF tD res tv ∧
      ∀ k, k ≤ ((params toInt S).nt - 1) / (params toInt S).t_step_save →
        (launch_run V X o w).world.files (dir ++ "/f_RPsl_".toList ++ Nat.toDigits 10 k ++ ".csv".toList)
          = some (tF (k * (params toInt S).t_step_save)).flatten ∧
        (launch_run V X o w).world.files (dir ++ "/rho_RPsl_".toList ++ Nat.toDigits 10 k ++ ".csv".toList)
          = some (tD (k * (params toInt S).t_step_save)).flatten := by
  obtain ⟨g, hSet, F, Q, A, B, hH, D, tF, tD, res, tv, hDe⟩ := C69_history_exists hV X.io (stepMem X.junk) (saveMem X.junk)
  refine ⟨g, hSet, F, Q, A, B, hH, D, tF, tD, res, tv, hDe, fun k hk => ?_⟩
  obtain ⟨o', -, -, -, -, -, -, -, -, hfiles⟩ := C86_end_to_end hT hh hS hD hR hC hE
  have hts : 1 ≤ (params toInt S).t_step_save := C65_launcher_interval_positive _ _
  have hb := (C62_one_block_per_file hV hSet X.junk hH hDe hts ".".toList hopen (fun _ => none)).1 k hk
  have csv : ∀ r : List Char, ".csv".toList <:+ r → r ∉ ["params.txt".toList, "out.txt".toList, bin] := by
    intro r hr hm
    simp only [List.mem_cons, List.not_mem_nil, or_false] at hm
    rcases hm with rfl | rfl | rfl
    · exact absurd hr (by decide)
    · exact absurd hr (by decide)
    · exact (run_suffix hS.bin_run).2.2 hr
  constructor
  · have h1 := hfiles ("f_RPsl_".toList ++ Nat.toDigits 10 k ++ ".csv".toList) (csv _ (List.suffix_append _ _))
    have e1 : dir ++ "/f_RPsl_".toList ++ Nat.toDigits 10 k ++ ".csv".toList
        = dir ++ '/' :: ("f_RPsl_".toList ++ Nat.toDigits 10 k ++ ".csv".toList) := by
      rw [show "/f_RPsl_".toList = '/' :: "f_RPsl_".toList from rfl]
      simp only [List.append_assoc, List.cons_append]
    have e2 : "./".toList ++ ("f_RPsl_".toList ++ Nat.toDigits 10 k ++ ".csv".toList) = pathOf ".".toList "f" k := by
      unfold pathOf
      rw [show "./".toList = ['.', '/'] from rfl, show ".".toList = ['.'] from rfl, show "f_RPsl_".toList = "f".toList ++ "_RPsl_".toList from rfl]
      simp only [List.append_assoc, List.cons_append, List.nil_append]
    rw [e1, h1, e2, hb.1]
    rfl
  · have h1 := hfiles ("rho_RPsl_".toList ++ Nat.toDigits 10 k ++ ".csv".toList) (csv _ (List.suffix_append _ _))
    have e1 : dir ++ "/rho_RPsl_".toList ++ Nat.toDigits 10 k ++ ".csv".toList
        = dir ++ '/' :: ("rho_RPsl_".toList ++ Nat.toDigits 10 k ++ ".csv".toList) := by
      rw [show "/rho_RPsl_".toList = '/' :: "rho_RPsl_".toList from rfl]
      simp only [List.append_assoc, List.cons_append]
    have e2 : "./".toList ++ ("rho_RPsl_".toList ++ Nat.toDigits 10 k ++ ".csv".toList) = pathOf ".".toList "rho" k := by
      unfold pathOf
      rw [show "./".toList = ['.', '/'] from rfl, show ".".toList = ['.'] from rfl,
        show "rho_RPsl_".toList = "rho".toList ++ "_RPsl_".toList from rfl]
      simp only [List.append_assoc, List.cons_append, List.nil_append]
    rw [e1, h1, e2, hb.2]
    rfl

end

/-- The object after a launch that returned. -/
theorem launch_ok {o' : Obj α} (h : (launch_run V X o w).obj = .ok o') :
    ∃ o1 o2 dir, set_derived_params V o = .ok o1 ∧ choose_output_dir V o1 = .ok (o2, dir) ∧
      ∀ n, n ≠ "parameter_file" → n ≠ "output_file" → n ≠ "run_str" → o'.get n = o2.get n := by
  rcases launch_cases V X o w with ⟨-, -, e, h'⟩ | ⟨o1, o2, dir, w1, h1, h2, h3, h4⟩
  · rw [h'] at h; cases h
  · refine ⟨o1, o2, dir, h1, h2, ?_⟩
    rcases h4 with h4 | ⟨r, w2, h5, h6, h7⟩
    · rw [h4] at h; cases h
    · rw [h7] at h
      have key : ∀ run : List Char, ∀ n, n ≠ "parameter_file" → n ≠ "output_file" → n ≠ "run_str" →
          (((o2.set "parameter_file" (.str "params.txt".toList)).set "output_file" (.str "out.txt".toList)).set "run_str" (.str run)).get n
            = o2.get n := by
        intro run n a b c
        rw [get_set_ne c, get_set_ne b, get_set_ne a]
      rcases start_cases V X dir (o2.set "parameter_file" (.str "params.txt".toList)) (w2.put (dir ++ "/params.txt".toList)
        (paramsText V (o2.set "parameter_file" (.str "params.txt".toList))))
        with ⟨w', e, hs⟩ | ⟨bin, prog, tv, -, -, -, -, o3, ho3, ⟨lv, th, hl, ht, hs⟩ | hs⟩
      · rw [hs] at h; cases h
      · rw [hs] at h
        unfold start.here at h
        rw [hl, ht] at h
        injection h with h
        rw [← h, ho3]
        exact key _
      · rw [hs] at h
        unfold start.submit at h
        split at h
        · cases h
        · injection h with h
          rw [← h, ho3]
          exact key _

/-- **C85.** Launching the same object again does not make a sibling directory: the directory of the second run is named after the
full path of the first, below `Output`. -/
theorem C85_relaunch_nests {V' : PyEnv α} {X' : Machine α} {w' : World} {o' o'' : Obj α} (hh : o.get "computer" = .ok (.str "home".toList))
    (h1 : (launch_run V X o w).obj = .ok o') (h2 : (launch_run V' X' o' w').obj = .ok o'') :
    ∃ dir, o'.get "output_dir" = .ok (.str dir) ∧ o''.get "output_dir" = .ok (.str (V'.home ++ "/Output".toList ++ dir)) := by
  obtain ⟨a1, a2, dir, b1, b2, b3⟩ := launch_ok h1
  obtain ⟨c1, c2, dir', d1, d2, d3⟩ := launch_ok h2
  obtain ⟨stem, e1, -, -⟩ := choose_form b2
  obtain ⟨stem', f1, f2, f3⟩ := choose_form d2
  have ho' : o'.get "output_dir" = .ok (.str dir) := by
    rw [b3 _ (by decide) (by decide) (by decide), e1, get_set_self]
  refine ⟨dir, ho', ?_⟩
  rw [d3 _ (by decide) (by decide) (by decide), f1, get_set_self]
  have hc : c1.get "computer" = .ok (.str "home".toList) := by
    rw [derived_get d1 (by decide), b3 _ (by decide) (by decide) (by decide), choose_get b2 (by decide) (by decide),
      derived_get b1 (by decide), hh]
  have hs : stem' = dir := f3 dir (by rw [derived_get d1 (by decide), ho'])
  rw [f2 hc, hs]

theorem derived_clean {o1 : Obj α} (h : set_derived_params V o = .ok o1) (hC : Clean V o) (hE : CleanEnv V) : Clean V o1 := by
  have hi : ∀ n : Int, '\n' ∉ V.str (.int n) := fun n hn => absurd (toStr_white n _ hn) (by decide)
  have hf : ∀ x : α, '\n' ∉ V.str (.flt x) := hE.fmt
  have hx : '\n' ∉ V.str (.cplx) := hE.cplx
  have hite : ∀ (b : Bool) (x : α), '\n' ∉ V.str (if b = true then .flt x else .cplx) := by
    intro b x
    split
    · exact hf x
    · exact hx
  unfold set_derived_params at h
  obtain ⟨m, -, h⟩ := exec_bind_ok h
  obtain ⟨a, -, h⟩ := exec_bind_ok h
  dsimp only at h
  obtain ⟨r0, -, h⟩ := exec_bind_ok h
  obtain ⟨r1, -, h⟩ := exec_bind_ok h
  obtain ⟨R, hR, h⟩ := exec_bind_ok h
  obtain ⟨cl, hcl, h⟩ := exec_bind_ok h
  obtain ⟨dt, -, h⟩ := exec_bind_ok h
  obtain ⟨T, -, h⟩ := exec_bind_ok h
  obtain ⟨q, -, h⟩ := exec_bind_ok h
  obtain ⟨nt, -, h⟩ := exec_bind_ok h
  obtain ⟨num, -, h⟩ := exec_bind_ok h
  obtain ⟨ts, -, h⟩ := exec_bind_ok h
  injection h with h
  have hR' : '\n' ∉ V.str R := by
    unfold rminOf at hR
    split at hR
    · obtain ⟨x, -, hR⟩ := exec_bind_ok hR
      injection hR with hR
      rw [← hR]
      exact hf x
    · obtain ⟨x, -, hR⟩ := exec_bind_ok hR
      injection hR with hR
      rw [← hR]
      exact hx
  rw [get_set_ne (by decide), get_set_ne (by decide), get_set_ne (by decide), get_set_ne (by decide)] at hcl
  rw [← h]
  exact (((((((hC.set (by decide) (by decide) (hite _ _)).set (by decide) (by decide) (hite _ _)).set (by decide) (by decide) (hite _ _)).set
    (by decide) (by decide) hR').set (by decide) (by decide) (hC.texts _ (Obj.mem_of_get hcl))).set (by decide) (by decide) (hf _)).set
    (by decide) (by decide) (hi _)).set (by decide) (by decide) (hi _)

theorem ctor_needs_Rmin {stod : List Char → Option α} {nd : Bool} {file : Option (List Char)} {P : ParamRec α}
    (h : Params.ctor stod nd file = .ok P) : ∃ x, Params.readDbl stod nd file "Rmin" = .ok x := by
  unfold Params.ctor at h
  obtain ⟨_, -, h⟩ := exec_bind_ok h
  obtain ⟨_, -, h⟩ := exec_bind_ok h
  obtain ⟨_, -, h⟩ := exec_bind_ok h
  obtain ⟨_, -, h⟩ := exec_bind_ok h
  obtain ⟨_, -, h⟩ := exec_bind_ok h
  obtain ⟨_, -, h⟩ := exec_bind_ok h
  obtain ⟨_, -, h⟩ := exec_bind_ok h
  obtain ⟨_, -, h⟩ := exec_bind_ok h
  obtain ⟨_, -, h⟩ := exec_bind_ok h
  obtain ⟨_, -, h⟩ := exec_bind_ok h
  obtain ⟨x, hx, h⟩ := exec_bind_ok h
  exact ⟨x, hx⟩

/-- **C87.** A spin larger than the mass is not noticed by the launcher (the horizon radius becomes a complex number), but the solver
stops at the parameter file: it writes nothing and prints nothing. -/
theorem C87_overspinning_writes_nothing {m a : α} {vm va : PyObj α} (hvm : o.get "black_hole_mass" = .ok vm) (hnm : IsNum vm m)
    (hva : o.get "black_hole_spin" = .ok va) (hna : IsNum va a) (hlt : lt ((m - a) * (m + a)) 0 = true) (hC : Clean V o) (hE : CleanEnv V) {dir : List Char} (hd : DirOf V o dir)
    (hx : V.cplxText ≠ [] ∧ ∀ c ∈ V.cplxText, White c = false) (hst : X.stod V.cplxText = none)
    (hbin : ∀ b, o.get "bin_name" = .ok (.str b) → ".run".toList <:+ b) (hpl : PlainBin o) {p : Prog α Unit}
    (h : (launch_run V X o w).solver = some p) : p.events = [] ∧ ∃ e, p.result = .error e := by
  have hm := num_of hvm hnm
  have ha := num_of hva hna
  rcases launch_cases V X o w with ⟨-, h', -⟩ | ⟨o1, o2, dir', w1, h1, h2, h3, h4⟩
  · rw [h'] at h; cases h
  rcases h4 with h4 | ⟨r, w2, h5, h6, h7⟩
  · rw [h4] at h; cases h
  have hd1 : DirOf V o1 dir := dirOf_congr hd fun n hn => derived_get h1 (by
    intro hm
    simp only [List.mem_cons, List.not_mem_nil, or_false, derivedNames] at hn hm
    rcases hn with rfl | rfl | rfl | rfl | rfl | rfl | rfl | rfl <;> simp at hm)
  have hC1 := derived_clean h1 hC hE
  obtain ⟨stem, hstem, hch⟩ := choose_eq hd1
  have hcl := dirs_clean hC1 hE hd1
  rw [h2] at hch
  injection hch with hch
  injection hch with hch1 hch2
  subst hch2
  obtain ⟨o3, ho3⟩ : ∃ o3, o3 = o2.set "parameter_file" (.str "params.txt".toList) := ⟨_, rfl⟩
  have hC3 : Clean V o3 := by
    rw [ho3, hch1]
    exact ((hC1.set (v := .str stem) (by decide) (by decide) (hcl.2 stem hstem)).set (v := .str dir') (by decide) (by decide) hcl.1).set
      (v := .str "params.txt".toList) (by decide) (by decide) (by show '\n' ∉ "params.txt".toList; decide)
  have hR3 : o3.get "Rmin" = .ok .cplx := by
    rw [ho3, get_set_ne (by decide), choose_get h2 (by decide) (by decide)]
    obtain ⟨vh, vl, vu, vR, vM, vd, vn, vt, e, hR⟩ := derived_form h1
    rw [e, get_set_ne (by decide), get_set_ne (by decide), get_set_ne (by decide), get_set_ne (by decide), get_set_self, hR m a hm ha hlt]
  have hbad : ∀ nd P, Params.ctor X.stod nd (some (paramsText V o3)) ≠ .ok P := by
    intro nd P hP
    obtain ⟨x, hx'⟩ := ctor_needs_Rmin hP
    unfold Params.readDbl at hx'
    rw [hC3.read hR3 hx.1 hx.2 rfl, ok_bind] at hx'
    rw [show V.str (PyObj.cplx : PyObj α) = V.cplxText from rfl, hst] at hx'
    cases hx'
  have p_ : ("/params.txt".toList : List Char) = '/' :: "params.txt".toList := rfl
  have o_ : ("/out.txt".toList : List Char) = '/' :: "out.txt".toList := rfl
  have inj : ∀ r r' : List Char, r ≠ r' → dir' ++ '/' :: r ≠ dir' ++ '/' :: r' := by
    intro r r' h e
    rw [List.append_right_inj] at e
    injection e with _ e
    exact h e
  have here : ∀ (w : World) (bin : List Char), w.files (dir' ++ '/' :: "params.txt".toList) = some (paramsText V o3) →
      (runHere X dir' bin w).2 = some p → p.events = [] ∧ ∃ e, p.result = .error e := by
    intro w bin hw hrun
    unfold runHere at hrun
    dsimp only at hrun
    split at hrun
    · cases hrun
    · rename_i E _
      injection hrun with hrun
      obtain ⟨w3, hw3⟩ : ∃ w3, w3 = w.put (dir' ++ "/out.txt".toList) [] := ⟨_, rfl⟩
      have hfile : w3.files (resolve dir' "params.txt".toList) = some (paramsText V o3) := by
        rw [show resolve dir' "params.txt".toList = dir' ++ '/' :: "params.txt".toList from rfl, hw3, o_, put_files_ne (inj _ _ (by decide)), hw]
      rw [← hw3] at hrun
      have hmain : ∀ x, Params.ctor X.stod E.ndebug (some (paramsText V o3)) = x →
          Main.main E X.io X.stod X.junk (fun q => w3.files (resolve dir' q)) ["params.txt".toList, ".".toList]
            = (Prog.lift x >>= fun P => Main.run E X.io X.junk ".".toList P) := by
        intro x hx
        have lift_ok : ∀ {σ τ : Type} (x : σ) (f : σ → Prog α τ), (Prog.lift (.ok x) >>= f) = f x := fun x f => rfl
        unfold Main.main
        have e0 : cassert E.ndebug (["params.txt".toList, ".".toList].length + 1 == 3) = .ok () := by simp [cassert]
        rw [e0, lift_ok]
        have e1 : rd ["params.txt".toList, ".".toList] 0 = .ok "params.txt".toList := rfl
        have e2 : rd ["params.txt".toList, ".".toList] 1 = .ok ".".toList := rfl
        rw [e1, lift_ok, e2, lift_ok]
        beta_reduce
        rw [hfile, hx]
      cases hc : Params.ctor X.stod E.ndebug (some (paramsText V o3)) with
      | ok P => exact absurd hc (hbad _ P)
      | error e =>
        rw [hmain _ hc] at hrun
        rw [← hrun]
        exact ⟨rfl, e, rfl⟩
  rw [h7, ← ho3] at h
  rcases start_cases V X dir' o3 (w2.put (dir' ++ "/params.txt".toList) (paramsText V o3))
    with ⟨w', e, hs⟩ | ⟨bin, prog, tv, hbn, -, -, -, o4, -, ⟨lv, th, hl, ht, hs⟩ | hs⟩
  · rw [hs] at h; cases h
  · rw [ho3, get_set_ne (by decide), choose_get h2 (by decide) (by decide), derived_get h1 (by decide)] at hbn
    rw [hs, here_ready hl ht (hpl _ hbn) (by rw [put_files_self]; rfl)] at h
    refine here _ bin ?_ h
    rw [chmod_files, put_files_ne (inj _ _ (Ne.symm (run_suffix (hbin _ hbn)).1)), p_, put_files_self]
  · rw [hs, submit_solver] at h
    cases h

/-! ### examples -/

/-- A launch for which everything is ready starts the solver and returns. -/
theorem launch_starts {dir bin : List Char} {E : Env α} {o1 : Obj α} (h1 : set_derived_params V o = .ok o1) (hT : w.Tree)
    (hh : o.get "computer" = .ok (.str "home".toList)) (hS : Ready V X o w dir bin E) : ∃ o' p, (launch_run V X o w).obj = .ok o' ∧ (launch_run V X o w).solver = some p ∧
      o'.get "output_dir" = .ok (.str dir) ∧
      ∀ n, n ∉ derivedNames → n ∉ ["output_dir", "output_stem", "parameter_file", "output_file", "run_str"] → o'.get n = o.get n := by
  have hget1 : ∀ n, n ∉ derivedNames → o1.get n = o.get n := fun n hn => derived_get h1 hn
  have hd1 : DirOf V o1 dir := dirOf_congr hS.is_dir fun n hn => hget1 n (by
    intro hm
    simp only [List.mem_cons, List.not_mem_nil, or_false, derivedNames] at hn hm
    rcases hn with rfl | rfl | rfl | rfl | rfl | rfl | rfl | rfl <;> simp at hm)
  obtain ⟨stem, -, h2⟩ := choose_eq hd1
  obtain ⟨o2, ho2⟩ : ∃ o2, o2 = (o1.set "output_stem" (.str stem)).set "output_dir" (.str dir) := ⟨_, rfl⟩
  rw [← ho2] at h2
  have hget : ∀ n, n ∉ derivedNames → n ≠ "output_dir" → n ≠ "output_stem" → o2.get n = o.get n := fun n a b c => by
    rw [ho2, get_set_ne b, get_set_ne c, hget1 n a]
  obtain ⟨tv, htv⟩ := hS.time_it
  obtain ⟨lv, hlv⟩ := hS.levels
  obtain ⟨th, hth⟩ := hS.threads
  obtain ⟨hb1, hb2, hb3⟩ := run_suffix hS.bin_run
  obtain ⟨w2, prog, hrun, hprog, hbuild, hprog2, hpar2, hoth2⟩ := launch_ready hT hS h1 h2
  have hst := start_ready (X := X) (dir := dir) (o := o2.set "parameter_file" (.str "params.txt".toList)) (bin := bin) (tv := tv)
    (by rw [get_set_ne (by decide), hget _ (by decide) (by decide) (by decide), hS.bin_name]) hprog2 hS.bin_plain.no_slash
    (by rw [get_set_ne (by decide), hget _ (by decide) (by decide) (by decide), htv])
    (by rw [get_set_ne (by decide), hget _ (by decide) (by decide) (by decide), hh])
  rw [if_pos isHome_home, here_ready (lv := lv) (th := th) (by
    rw [get_set_ne (by decide), get_set_ne (by decide), get_set_ne (by decide), hget _ (by decide) (by decide) (by decide), hlv]) (by
    rw [get_set_ne (by decide), get_set_ne (by decide), get_set_ne (by decide), hget _ (by decide) (by decide) (by decide), hth])
    hS.bin_plain (by rw [put_files_self]; rfl)] at hst
  have hhere : ∃ p, (runHere X dir bin ((w2.put (dir ++ '/' :: bin) prog).chmod (dir ++ '/' :: bin))).2 = some p := by
    unfold runHere
    dsimp only
    rw [show ("/out.txt".toList : List Char) = '/' :: "out.txt".toList from rfl, put_files_ne, chmod_files, put_files_self, Option.bind_some, hbuild]
    · exact ⟨_, rfl⟩
    · intro e
      rw [List.append_right_inj] at e
      injection e with _ e
      exact hb2 e
  obtain ⟨p, hp⟩ := hhere
  rw [hrun, hst]
  refine ⟨_, p, rfl, hp, ?_, fun n a b => ?_⟩
  · rw [get_set_ne (by decide), get_set_ne (by decide), get_set_ne (by decide), ho2, get_set_self]
  · simp only [List.mem_cons, List.not_mem_nil, or_false, not_or] at b
    obtain ⟨b1, b2, b3, b4, b5⟩ := b
    rw [get_set_ne b5, get_set_ne b4, get_set_ne b3, hget n a b1 b2]

theorem demo_plainBin {x : CR} : PlainBin (demoO x) := by
  intro b hb
  injection hb with hb
  injection hb with hb
  rw [← hb]
  exact demo_plain

/-- Non-vacuity of the first three theorems of C85: a file system with a directory, and an object that names it (or another). -/
example : demoW.Tree ∧ (∀ r, (demoO (CR.fin demoS.spin)).get "recompile" = .ok r → ¬ EqTrue r) ∧
    DirOf demoV (demoO (CR.fin demoS.spin)) "/u/Output/run1".toList ∧
    PlainBin (demoO (CR.fin demoS.spin)) ∧ (∃ w : World, w.Tree ∧ w.dirs "/u/Output/run1".toList = true) := by
  refine ⟨demo_tree, ?_, ⟨_, Or.inl rfl, Or.inl ⟨rfl, rfl⟩⟩, demo_plainBin, ⟨⟨fun _ => none, fun _ => true, fun _ => false⟩, ⟨fun _ _ h => (by cases h), fun _ _ _ => rfl⟩, rfl⟩⟩
  intro r hr
  injection hr with hr
  rw [← hr]
  rintro (h | h) <;> cases h

/-- Non-vacuity of C86_end_to_end and C86_tables: the template's physics on a small grid, launched on the local computer. -/
example : ∃ E, demoW.Tree ∧ (demoO (CR.fin demoS.spin)).get "computer" = .ok (.str "home".toList) ∧ Ready demoV (demoX E) (demoO (CR.fin demoS.spin)) demoW "/u/Output/run1".toList "default_fd.run".toList E ∧
    Describes demoV (demoX E).stod (demoO (CR.fin demoS.spin)) (demoS.map CR.fin) ∧ Regular demoV (demoX E).stod intCR (demoS.map CR.fin) ∧
    Clean demoV (demoO (CR.fin demoS.spin)) ∧ CleanEnv demoV ∧ Valid E (params intCR (demoS.map CR.fin)) ∧
    ∀ nm k, (demoX E).io.canOpen (pathOf ".".toList nm k) = true := by
  obtain ⟨E, hE⟩ := launchDemo_valid
  refine ⟨E, demo_tree, rfl, demo_ready E (stem := "/run1".toList) rfl (by decide) ?_, demo_describes, demo_regular, demo_clean _, demo_cleanEnv, hE,
    fun _ _ => rfl⟩
  intro n hn
  simp only [List.mem_cons, List.not_mem_nil, or_false] at hn
  rcases hn with rfl | rfl | rfl | rfl | rfl | rfl <;> rfl

/-- Non-vacuity of C87_failure_unnoticed and C85_relaunch_nests: the example object can be launched, and launched again. -/
example : ∃ E o' o'' p, (demoO (CR.fin demoS.spin)).get "computer" = .ok (.str "home".toList) ∧
    (launch_run demoV (demoX E) (demoO (CR.fin demoS.spin)) demoW).obj = .ok o' ∧
    (launch_run demoV (demoX E) (demoO (CR.fin demoS.spin)) demoW).solver = some p ∧
    (launch_run demoV (demoX E) o' demoW).obj = .ok o'' := by
  obtain ⟨E, hE⟩ := launchDemo_valid
  have hr := demo_ready E (o := demoO (CR.fin demoS.spin)) (stem := "/run1".toList) rfl (by decide) (by
    intro n hn
    simp only [List.mem_cons, List.not_mem_nil, or_false] at hn
    rcases hn with rfl | rfl | rfl | rfl | rfl | rfl <;> rfl)
  obtain ⟨clv, hcl, -⟩ := demo_describes.cl
  obtain ⟨o', p, h1, h2, h3, h4⟩ := launch_starts (derived_eq hcl demo_describes demo_regular) demo_tree rfl hr
  have hD' : Describes demoV demoStod o' (demoS.map CR.fin) := demo_describes.congr fun m hm => h4 m (by
    intro h
    have : ∀ m ∈ describedNames, m ∉ derivedNames := by decide
    exact this m hm h) (by
    intro h
    have : ∀ m ∈ describedNames, m ∉ ["output_dir", "output_stem", "parameter_file", "output_file", "run_str"] := by decide
    exact this m hm h)
  have hr' := demo_ready E (o := o') (stem := "/u/Output/run1".toList) h3 (by decide) (by
    intro n hn
    simp only [List.mem_cons, List.not_mem_nil, or_false] at hn
    rcases hn with rfl | rfl | rfl | rfl | rfl | rfl <;> rw [h4 _ (by decide) (by decide)] <;> rfl)
  obtain ⟨clv', hcl', -⟩ := hD'.cl
  obtain ⟨o'', -, g1, -, -⟩ := launch_starts (derived_eq hcl' hD' demo_regular) demo_tree (by rw [h4 _ (by decide) (by decide)]; rfl) hr'
  exact ⟨E, o', o'', p, rfl, h1, h2, g1⟩

/-- Non-vacuity of C87_overspinning_writes_nothing: the example object with mass 1 and spin 2 starts the solver. -/
example : ∃ E p, (demoO (CR.fin 2)).get "black_hole_mass" = .ok (.flt (CR.fin 1)) ∧ IsNum (.flt (CR.fin 1)) (CR.fin 1) ∧
    (demoO (CR.fin 2)).get "black_hole_spin" = .ok (.flt (CR.fin 2)) ∧ PlainBin (demoO (CR.fin 2)) ∧
    lt ((CR.fin 1 - CR.fin 2) * (CR.fin 1 + CR.fin 2)) 0 = true ∧ Clean demoV (demoO (CR.fin 2)) ∧ CleanEnv demoV ∧
    DirOf demoV (demoO (CR.fin 2)) "/u/Output/run1".toList ∧ (demoV.cplxText ≠ [] ∧ ∀ c ∈ demoV.cplxText, White c = false) ∧
    (demoX E).stod demoV.cplxText = none ∧ (∀ b, (demoO (CR.fin 2)).get "bin_name" = .ok (.str b) → ".run".toList <:+ b) ∧
    (launch_run demoV (demoX E) (demoO (CR.fin 2)) demoW).solver = some p := by
  obtain ⟨E, hE⟩ := launchDemo_valid
  have hlt : lt ((CR.fin 1 - CR.fin 2) * (CR.fin 1 + CR.fin 2)) 0 = true := by
    simp only [CR.fin_sub, CR.fin_add, CR.fin_mul, CR.fin_ofNat_zero, CR.fin_lt]
    norm_num
  have hr := demo_ready E (o := demoO (CR.fin 2)) (stem := "/run1".toList) rfl (by decide) (by
    intro n hn
    simp only [List.mem_cons, List.not_mem_nil, or_false] at hn
    rcases hn with rfl | rfl | rfl | rfl | rfl | rfl <;> rfl)
  have hder : ∃ o1, set_derived_params demoV (demoO (CR.fin 2)) = .ok o1 := by
    have hm : (demoO (CR.fin 2)).num "black_hole_mass" = .ok (CR.fin 1) := rfl
    have ha : (demoO (CR.fin 2)).num "black_hole_spin" = .ok (CR.fin 2) := rfl
    have h0 : (demoO (CR.fin 2)).num "rl_0" = .ok (CR.fin demoS.rl_0) := rfl
    have h1 : (demoO (CR.fin 2)).num "ru_0" = .ok (CR.fin demoS.ru_0) := rfl
    have hc : (demoO (CR.fin 2)).num "compactification_length" = .ok (CR.fin demoS.cl) := rfl
    have hc' : (demoO (CR.fin 2)).get "compactification_length" = .ok (.flt (CR.fin demoS.cl)) := rfl
    have hT : (demoO (CR.fin 2)).num "evolve_time" = .ok (CR.fin demoS.evolve_time) := rfl
    have hn : (demoO (CR.fin 2)).int "num_saved_times" = .ok 1200 := rfl
    have hdt : dtOf demoV (demoO (CR.fin 2)) = .ok (CR.fin demoS.step) := by
      rw [show dtOf demoV (demoO (CR.fin 2)) = dtOf demoV (demoO (CR.fin demoS.spin)) from rfl, dtOf_eq demo_describes demo_regular]
      exact congrArg _ demoS_sensible.timeStep
    unfold set_derived_params
    rw [hm, ok_bind, ha, ok_bind]
    dsimp only
    rw [hlt]
    simp only [Bool.not_true, Bool.false_eq_true, if_false]
    rw [num_set (by decide), h0, ok_bind, num_set (by decide), num_set (by decide), h1, ok_bind]
    unfold rminOf
    simp only [Bool.false_eq_true, if_false]
    rw [num_set (by decide), num_set (by decide), num_set (by decide), hc]
    simp only [ok_bind]
    rw [get_set_ne (by decide), get_set_ne (by decide), get_set_ne (by decide), get_set_ne (by decide), hc', ok_bind]
    rw [dtOf_set _ (by decide), dtOf_set _ (by decide), dtOf_set _ (by decide), dtOf_set _ (by decide), dtOf_set _ (by decide), hdt, ok_bind]
    rw [num_set (by decide), num_set (by decide), num_set (by decide), num_set (by decide), num_set (by decide), num_set (by decide),
      hT, ok_bind]
    have hz : demoV.isZero (CR.fin demoS.step) = false := by
      rw [← demoS_sensible.timeStep]
      exact demo_regular.step
    unfold PyEnv.div
    rw [hz]
    simp only [Bool.false_eq_true, if_false]
    rw [ok_bind, show ∀ x, demoV.toInt x = .ok (intCR x : Int) from fun _ => rfl, ok_bind]
    rw [int_set (by decide), int_set (by decide), int_set (by decide), int_set (by decide), int_set (by decide), int_set (by decide),
      int_set (by decide), hn, ok_bind, show (1200 : Int) = (1200 : ℕ) from rfl, saveEvery_nat (by decide), ok_bind]
    exact ⟨_, rfl⟩
  obtain ⟨o1, h1⟩ := hder
  obtain ⟨o', p, -, h2, -⟩ := launch_starts h1 demo_tree rfl hr
  refine ⟨E, p, rfl, Or.inl rfl, rfl, demo_plainBin, hlt, demo_clean _, demo_cleanEnv, hr.is_dir, by decide, rfl, ?_, h2⟩
  intro b hb
  injection hb with hb
  injection hb with hb
  rw [← hb]
  decide

end SFK
