import Verif.Props.LaunchRun
import Verif.Lemmas.LaunchJob
/-
C99: a run on a cluster; C85: recompilation.
-/
namespace SFK
open Scalar Launcher
variable {α : Type} [Scalar α]
variable {V : PyEnv α} {X : Machine α} {o : Obj α} {w : World}

section
variable {toInt : α → Nat} {S : Settings α} {dir bin : List Char} {E : Env α}

theorem not_home {c : List Char} (h : c ≠ "home".toList) : (PyObj.str c : PyObj α).isHome = false := by
  simp only [PyObj.isHome, beq_eq_false_iff_ne]
  exact h

theorem dir_inj (dir : List Char) : ∀ r r' : List Char, r ≠ r' → dir ++ '/' :: r ≠ dir ++ '/' :: r' := by
  intro r r' h e
  rw [List.append_right_inj] at e
  injection e with _ e
  exact h e

/-- a launch on a cluster: the script, and the files in the directory -/
theorem launch_submits (hT : w.Tree) {c : List Char} (hc : o.get "computer" = .ok (.str c)) (hc' : c ≠ "home".toList)
    (hS : Ready V X o w dir bin E) (hD : Describes V X.stod o S) (hR : Regular V X.stod toInt S) (hC : Clean V o) (hE : CleanEnv V)
    {wt mem mail nth nlv : PyObj α} (h1 : o.get "walltime" = .ok wt) (h2 : o.get "memory" = .ok mem) (h3 : o.get "email" = .ok mail)
    (h4 : o.get "num_threads" = .ok nth) (h5 : o.get "num_omp_levels" = .ok nlv) :
    ∃ (t : Bool) (prog text script : List Char) (o' : Obj α), script = unlines (slurmLines (V.str wt) (V.str mem) (V.str mail) (V.str nth) (V.str nlv) bin (runStr t bin)) ∧
      (launch_run V X o w).obj = .ok o' ∧ o'.get "output_dir" = .ok (.str dir) ∧ (launch_run V X o w).solver = none ∧
      (launch_run V X o w).job = (match shWords ("sbatch ".toList ++ dir ++ "/run.slurm".toList) with
        | [_, p] => (launch_run V X o w).world.files (resolve dir p)
        | _ => Option.none) ∧
      (launch_run V X o w).world.files (dir ++ '/' :: "run.slurm".toList) = some script ∧
      w.files (V.home ++ "/Bin/".toList ++ bin) = some prog ∧ X.build prog = some E ∧
      (launch_run V X o w).world.files (dir ++ '/' :: bin) = some prog ∧
      (launch_run V X o w).world.files (dir ++ '/' :: "params.txt".toList) = some text ∧
      (∀ nd, Params.ctor X.stod nd (some text) = .ok (params toInt S)) ∧
      ∀ r, r ∉ ["params.txt".toList, "run.slurm".toList, bin] → (launch_run V X o w).world.files (dir ++ '/' :: r) = none := by
  obtain ⟨o2, h12, hod, hget, hctor⟩ := launch_object hD hR hC hE hS.is_dir
  obtain ⟨o1, k1, k2⟩ := exec_bind_ok h12
  obtain ⟨tv, htv⟩ := hS.time_it
  obtain ⟨hb1, hb2, hb3⟩ := run_suffix hS.bin_run
  have hb4 : bin ≠ "run.slurm".toList := by
    rintro rfl
    exact absurd hS.bin_run (by decide)
  obtain ⟨w2, prog, hrun, hprog, hbuild, hprog2, hpar2, hoth2⟩ := launch_ready hT hS k1 k2
  have hst := start_ready (X := X) (dir := dir) (o := o2.set "parameter_file" (.str "params.txt".toList)) (bin := bin) (tv := tv)
    (by rw [get_set_ne (by decide), hget _ (by decide) (by decide) (by decide), hS.bin_name]) hprog2 hS.bin_plain.no_slash
    (by rw [get_set_ne (by decide), hget _ (by decide) (by decide) (by decide), htv])
    (by rw [get_set_ne (by decide), hget _ (by decide) (by decide) (by decide), hc])
  rw [not_home hc'] at hst
  simp only [Bool.false_eq_true, if_false] at hst
  obtain ⟨o3, ho3⟩ : ∃ o3, o3 = ((o2.set "parameter_file" (.str "params.txt".toList)).set "output_file" (.str "out.txt".toList)).set "run_str"
      (.str (runStr tv.truthy bin)) := ⟨_, rfl⟩
  have g : ∀ n, n ≠ "parameter_file" → n ≠ "output_file" → n ≠ "run_str" → n ∉ derivedNames → n ≠ "output_dir" → n ≠ "output_stem" →
      o3.get n = o.get n := by
    intro n a b c d e f
    rw [ho3, get_set_ne c, get_set_ne b, get_set_ne a, hget n d e f]
  rw [← ho3] at hst
  unfold start.submit at hst
  rw [slurmText_eq (V := V) (wt := wt) (mem := mem) (mail := mail) (nth := nth) (nlv := nlv)
    (by rw [g _ (by decide) (by decide) (by decide) (by decide) (by decide) (by decide), h1])
    (by rw [g _ (by decide) (by decide) (by decide) (by decide) (by decide) (by decide), h2])
    (by rw [g _ (by decide) (by decide) (by decide) (by decide) (by decide) (by decide), h3])
    (by rw [g _ (by decide) (by decide) (by decide) (by decide) (by decide) (by decide), h4])
    (by rw [g _ (by decide) (by decide) (by decide) (by decide) (by decide) (by decide), h5])] at hst
  dsimp only at hst
  obtain ⟨script, hscript⟩ : ∃ script, script
    = unlines (slurmLines (V.str wt) (V.str mem) (V.str mail) (V.str nth) (V.str nlv) bin (runStr tv.truthy bin)) := ⟨_, rfl⟩
  rw [← hscript] at hst
  have s_ : ("/run.slurm".toList : List Char) = '/' :: "run.slurm".toList := rfl
  refine ⟨tv.truthy, prog, paramsText V (o2.set "parameter_file" (.str "params.txt".toList)), script, o3, hscript, ?_⟩
  rw [hrun, hst]
  refine ⟨rfl, ?_, rfl, rfl, ?_, hprog, hbuild, ?_, ?_, hctor, ?_⟩
  · rw [ho3, get_set_ne (by decide), get_set_ne (by decide), get_set_ne (by decide), hod]
  · dsimp only
    rw [s_, put_files_self]
  · dsimp only
    rw [s_, put_files_ne (dir_inj _ _ _ hb4), put_files_self]
  · dsimp only
    rw [s_, put_files_ne (dir_inj _ _ _ (by decide)), put_files_ne (dir_inj _ _ _ (Ne.symm hb1)), hpar2]
  · intro r hr
    simp only [List.mem_cons, List.not_mem_nil, or_false, not_or] at hr
    dsimp only
    rw [s_, put_files_ne (dir_inj _ _ _ hr.2.1), put_files_ne (dir_inj _ _ _ hr.2.2), hoth2 r hr.1]

theorem resolve_abs {dir p : List Char} (h : p.head? = some '/') : resolve dir p = p := by
  cases p with
  | nil => cases h
  | cons a r =>
    injection h with h
    subst h
    rfl

/-- **C99.** On a cluster.  An object whose attributes say what the settings `S` say, with a new directory and a built binary: the launch returns, a
script is handed to the queue, and whenever the queue starts the job -- whatever has happened outside the directory by then -- the job runs the solver in
the directory with exactly the parameters derived from `S`, with the object's number of threads and levels, and leaves in the directory, besides
parameter file, binary, script and standard output, exactly what the solver writes when it starts in an empty directory. -/
theorem C99_job_runs_the_settings (hT : w.Tree) (hQ : Queued V o dir) (hS : Ready V X o w dir bin E) (hD : Describes V X.stod o S)
    (hR : Regular V X.stod toInt S) (hC : Clean V o) (hE : CleanEnv V) :
    ∃ o' script, (launch_run V X o w).obj = .ok o' ∧ o'.get "output_dir" = .ok (.str dir) ∧ (launch_run V X o w).solver = none ∧
      (launch_run V X o w).job = some script ∧
      ∀ w' : World, (∀ r, w'.files (dir ++ '/' :: r) = (launch_run V X o w).world.files (dir ++ '/' :: r)) →
        (runJob X dir script w').solver = some (Main.run E X.io X.junk ".".toList (params toInt S)) ∧
        (∀ n, o.get "num_threads" = .ok n → envGet (runJob X dir script w').env "OMP_NUM_THREADS".toList = some (V.str n)) ∧
        (∀ n, o.get "num_omp_levels" = .ok n → envGet (runJob X dir script w').env "OMP_MAX_ACTIVE_LEVELS".toList = some (V.str n)) ∧
        (∀ nd, Params.ctor X.stod nd ((runJob X dir script w').world.files (dir ++ "/params.txt".toList)) = .ok (params toInt S)) ∧
        (runJob X dir script w').world.files (dir ++ '/' :: bin) = w.files (V.home ++ "/Bin/".toList ++ bin) ∧
        ∀ r, r ∉ ["params.txt".toList, "out.txt".toList, "run.slurm".toList, bin] → (runJob X dir script w').world.files (dir ++ '/' :: r)
          = FS.replay (fun _ => none) (Main.run E X.io X.junk ".".toList (params toInt S)).events ("./".toList ++ r) := by
  obtain ⟨c, hc, hc'⟩ := hQ.computer
  obtain ⟨wt, h1⟩ := hQ.walltime
  obtain ⟨mem, h2⟩ := hQ.memory
  obtain ⟨mail, h3⟩ := hQ.email
  obtain ⟨nth, h4⟩ := hS.threads
  obtain ⟨nlv, h5⟩ := hS.levels
  obtain ⟨t, prog, text, script, o', hscript, a1, a2, a3, a4, a5, a6, a7, a8, a9, a10, a11⟩ :=
    launch_submits hT hc hc' hS hD hR hC hE h1 h2 h3 h4 h5
  have nl : ∀ (n : String) (v : PyObj α), o.get n = .ok v → '\n' ∉ V.str v := fun n v hv => hC.texts _ (Obj.mem_of_get hv)
  obtain ⟨hb1, hb2, hb3⟩ := run_suffix hS.bin_run
  refine ⟨o', script, a1, a2, a3, ?_, ?_⟩
  · have e : "sbatch ".toList ++ dir ++ "/run.slurm".toList = "sbatch".toList ++ ' ' :: (dir ++ "/run.slurm".toList) := rfl
    have hne : ∀ r : List Char, (dir ++ r).head? = some '/' := by
      intro r
      have := hQ.absolute
      cases hd : dir with
      | nil => rw [hd] at this; cases this
      | cons a d => rw [hd] at this; exact this
    rw [a4, e, shWords_word (by decide) (by decide), shWords_one (by simp only [List.mem_append, not_or]; exact ⟨hQ.no_space, by decide⟩) (by simp)]
    dsimp only
    rw [resolve_abs (hne _)]
    exact a5
  · intro w' hw'
    have hj := runJob_eq (X := X) (dir := dir) (bin := bin) (w := w') (nl _ _ h1) (nl _ _ h2) (nl _ _ h3) (nl _ _ h4) (nl _ _ h5) hS.bin_plain
      (hQ.levels _ h5).1 (hQ.levels _ h5).2 t (by rw [hw', a8]; rfl)
    rw [← hscript] at hj
    rw [hj]
    obtain ⟨f1, f2, f3, f4⟩ := runHere_files (X := X) (E := E) (P := params toInt S) (dir := dir) (w := w'.chmod (dir ++ '/' :: bin)) hS.bin_run
      (by rw [chmod_files, hw', a8]) a7 (by rw [chmod_files, hw', a9]) (a10 _)
    refine ⟨f1, ?_, ?_, ?_, ?_, ?_⟩
    · intro n hn
      rw [h4] at hn
      injection hn with hn
      rw [← hn]
      rfl
    · intro n hn
      rw [h5] at hn
      injection hn with hn
      rw [← hn]
      rfl
    · intro nd
      have := f2 "params.txt".toList (by decide) (by decide)
      show Params.ctor X.stod nd ((runHere X dir bin (w'.chmod (dir ++ '/' :: bin))).1.files (dir ++ '/' :: "params.txt".toList)) = _
      rw [this, chmod_files, hw', a9]
      exact a10 nd
    · dsimp only
      rw [f2 _ hb3 hb2, chmod_files, hw', a8, a6]
    · intro r hr
      simp only [List.mem_cons, List.not_mem_nil, or_false, not_or] at hr
      apply f4 r hr.2.1
      rw [chmod_files, hw']
      apply a11
      simp only [List.mem_cons, List.not_mem_nil, or_false, not_or]
      exact ⟨hr.1, hr.2.2.1, hr.2.2.2⟩

/-- **C99.** If the place of the runs is given by a relative path, nothing is handed to the queue -- `sbatch` is called in the new directory with a path
relative to the old one -- and this is not noticed: the launch returns. -/
theorem C99_relative_path_not_queued (hT : w.Tree) {c : List Char} (hc : o.get "computer" = .ok (.str c)) (hc' : c ≠ "home".toList)
    (hS : Ready V X o w dir bin E) (hD : Describes V X.stod o S) (hR : Regular V X.stod toInt S) (hC : Clean V o) (hE : CleanEnv V)
    (hw : ∃ v, o.get "walltime" = .ok v) (hm : ∃ v, o.get "memory" = .ok v) (he : ∃ v, o.get "email" = .ok v)
    (hd : ∃ a r, dir = a :: r ∧ a.isAlphanum = true) :
    ∃ o', (launch_run V X o w).obj = .ok o' ∧ (launch_run V X o w).solver = none ∧ (launch_run V X o w).job = none := by
  obtain ⟨wt, h1⟩ := hw
  obtain ⟨mem, h2⟩ := hm
  obtain ⟨mail, h3⟩ := he
  obtain ⟨nth, h4⟩ := hS.threads
  obtain ⟨nlv, h5⟩ := hS.levels
  obtain ⟨t, prog, text, script, o', hscript, a1, a2, a3, a4, a5, a6, a7, a8, a9, a10, a11⟩ :=
    launch_submits hT hc hc' hS hD hR hC hE h1 h2 h3 h4 h5
  refine ⟨o', a1, a3, ?_⟩
  obtain ⟨a, r, hdir, ha⟩ := hd
  have hsp : dir.head? = some a := by rw [hdir]; rfl
  have e : "sbatch ".toList ++ dir ++ "/run.slurm".toList = "sbatch".toList ++ ' ' :: (dir ++ "/run.slurm".toList) := rfl
  rw [a4, e, shWords_word (by decide) (by decide)]
  have hrel : ∀ p : List Char, p.head? = some a → resolve dir p = dir ++ '/' :: p := by
    intro p hp
    cases p with
    | nil => cases hp
    | cons b q =>
      injection hp with hp
      subst hp
      unfold resolve
      split
      · rename_i h
        injection h with h
        subst h
        exact absurd ha (by decide)
      · rename_i h
        injection h with h
        subst h
        exact absurd ha (by decide)
      · rfl
  have hnone : ∀ p : List Char, '/' ∈ p → (launch_run V X o w).world.files (dir ++ '/' :: p) = none := by
    intro p hp
    apply a11
    simp only [List.mem_cons, List.not_mem_nil, or_false, not_or]
    refine ⟨?_, ?_, ?_⟩ <;> rintro rfl
    · exact absurd hp (by decide)
    · exact absurd hp (by decide)
    · exact hS.bin_plain.no_slash hp
  by_cases hs : ' ' ∈ dir
  · -- a path with spaces is more than one word
    have : ∀ ws : List (List Char), (∀ p, ws = [p] → (launch_run V X o w).world.files (resolve dir p) = none) →
        (match "sbatch".toList :: ws with
          | [_, p] => (launch_run V X o w).world.files (resolve dir p)
          | _ => none) = none := by
      intro ws hws
      match ws, hws with
      | [], _ => rfl
      | [p], hws => exact hws p rfl
      | _ :: _ :: _, _ => rfl
    apply this
    intro p hp
    exfalso
    have ha' : a ≠ ' ' := by rintro rfl; exact absurd ha (by decide)
    have h2 : 2 ≤ (shWords (dir ++ "/run.slurm".toList)).length := by
      obtain ⟨u, v, huv, hu⟩ : ∃ u v, dir = u ++ ' ' :: v ∧ ' ' ∉ u := by
        obtain ⟨u, v, h, h'⟩ := List.eq_append_cons_of_mem hs
        exact ⟨u, v, h, h'⟩
      have hu0 : u ≠ [] := by
        rintro rfl
        rw [hdir] at huv
        injection huv with huv
        exact ha' huv
      rw [huv, List.append_assoc, List.cons_append, shWords_word hu hu0]
      have : ∀ s : List Char, s.getLast? = some 'm' → 1 ≤ (shWords s).length := by
        intro s
        induction s with
        | nil => intro h; cases h
        | cons b s ih =>
          intro hl
          unfold shWords cut
          by_cases hb : b = ' '
          · rw [if_pos hb, List.filter_cons_of_neg (by simp)]
            cases s with
            | nil =>
              rw [hb] at hl
              exact absurd hl (by decide)
            | cons b' s' =>
              apply ih
              rw [List.getLast?_cons_cons] at hl
              exact hl
          · rw [if_neg hb]
            split
            · rw [List.filter_cons_of_pos (by simp)]
              simp
            · rw [List.filter_cons_of_pos (by simp)]
              simp
      have := this (v ++ "/run.slurm".toList) (by rw [List.getLast?_append]; rfl)
      simp only [List.length_cons]
      omega
    rw [hp] at h2
    simp at h2
  · rw [shWords_one (by simp only [List.mem_append, not_or]; exact ⟨hs, by decide⟩) (by simp)]
    dsimp only
    rw [hrel _ (by rw [hdir]; rfl)]
    apply hnone
    simp only [List.mem_append]
    exact Or.inr (by decide)

end

/-- what running the solver leaves alone in its directory -/
theorem runHere_keep {dir bin r : List Char} (h1 : ¬ ".csv".toList <:+ r) (h2 : r ≠ "out.txt".toList) :
    (runHere X dir bin w).1.files (dir ++ '/' :: r) = w.files (dir ++ '/' :: r) := by
  have o_ : ("/out.txt".toList : List Char) = '/' :: "out.txt".toList := rfl
  have hne : ∀ r', '/' ∉ r' → ".csv".toList <:+ r' → dir ++ '/' :: r ≠ dir ++ '/' :: r' := by
    intro r' _ hs
    apply dir_inj
    rintro rfl
    exact h1 hs
  unfold runHere
  dsimp only
  split
  · rw [o_, put_files_ne (dir_inj _ _ _ h2)]
  · rename_i E hE
    have hl := foldl_event (dir := dir) (main_loc (E := E) (io := X.io) (stod := X.stod) (J := X.junk)
      (files := fun q => (w.put (dir ++ "/out.txt".toList) []).files (resolve dir q)) (pf := "params.txt".toList) (dir := ".".toList)).events
      (w.put (dir ++ "/out.txt".toList) []) (fun q => (w.put (dir ++ "/out.txt".toList) []).files (resolve dir q)) (fun r => rfl)
    dsimp only
    rw [o_, put_files_ne (dir_inj _ _ _ h2)]
    rw [show dir ++ '/' :: "out.txt".toList = dir ++ "/out.txt".toList from rfl, hl.2.1 _ hne, o_, put_files_ne (dir_inj _ _ _ h2)]

/-- **C85.** With `recompile=True` the binary that is copied (and run) is the one in Bin after the commands `make clean_obj<name>` and
`make <name>`, given after the directory has been made. -/
theorem C85_recompiled_binary_used {b dir : List Char} {o' : Obj α} {r : PyObj α} (hr : o.get "recompile" = .ok r) (ht : EqTrue r) (hb : o.get "bin_name" = .ok (.str b))
    (hp : Plain b) (hs : ".run".toList <:+ b) (hd : DirOf V o dir)
    (h : (launch_run V X o w).obj = .ok o') :
    ∃ w1 : World, w1.files = w.files ∧ (∀ q, w1.dirs q = true ↔ w.dirs q = true ∨ q = dir ∨ ∃ r, dir = q ++ '/' :: r) ∧
      ∃ prog, (X.make ("make ".toList ++ b) (X.make ("make clean_obj".toList ++ b) w1)).files (V.home ++ "/Bin/".toList ++ b) = some prog ∧
        (launch_run V X o w).world.files (dir ++ '/' :: b) = some prog := by
  rcases launch_cases V X o w with ⟨-, -, e, h'⟩ | ⟨o1, o2, dir', w1, h1, h2, h3, h4⟩
  · rw [h'] at h; cases h
  rcases h4 with h4 | ⟨r, w2, h5, h6, h7⟩
  · rw [h4] at h; cases h
  have hd1 : DirOf V o1 dir := dirOf_congr hd fun n hn => derived_get h1 (by
    intro hm
    simp only [List.mem_cons, List.not_mem_nil, or_false, derivedNames] at hn hm
    rcases hn with rfl | rfl | rfl | rfl | rfl | rfl | rfl | rfl <;> simp at hm)
  obtain ⟨stem, -, hch⟩ := choose_eq hd1
  rw [h2] at hch
  injection hch with hch
  injection hch with hch1 hch2
  subst hch2
  obtain ⟨-, -, hf1, hdirs⟩ := makedirs_form h3
  have g : ∀ n, n ∉ derivedNames → n ≠ "output_dir" → n ≠ "output_stem" → o2.get n = o.get n := fun n a b c => by
    rw [choose_get h2 c b, derived_get h1 a]
  rw [g _ (by decide) (by decide) (by decide), hr] at h5
  injection h5 with h5
  subst h5
  rw [if_pos (isTrue_iff.2 ht)] at h6
  unfold then_recompile at h6
  rw [g _ (by decide) (by decide) (by decide), hb, ok_bind] at h6
  have e : ((PyObj.str b : PyObj α).toStr) = .ok b := rfl
  rw [e, ok_bind] at h6
  injection h6 with h6
  refine ⟨w1, hf1, ?_, ?_⟩
  · intro q
    rw [hdirs]
    unfold ancestorOrSelf
    simp only [Bool.or_eq_true, beq_iff_eq, List.isPrefixOf_iff_prefix]
    constructor
    · rintro ((h | ⟨t, h⟩) | h)
      · exact Or.inr (Or.inl h)
      · exact Or.inr (Or.inr ⟨t, by rw [← h]; simp⟩)
      · exact Or.inl h
    · rintro (h | h | ⟨t, h⟩)
      · exact Or.inr h
      · exact Or.inl (Or.inl h)
      · exact Or.inl (Or.inr ⟨t, by rw [h]; simp⟩)
  · rw [h6]
    rw [h7] at h ⊢
    obtain ⟨hb1, hb2, hb3⟩ := run_suffix hs
    have hb4 : b ≠ "run.slurm".toList := by
      rintro rfl
      exact absurd hs (by decide)
    have hnew : V.home ++ "/Bin/".toList ++ b ≠ dir' ++ "/params.txt".toList := by
      intro e
      have a1 : (".ru".toList ++ ['n']) <:+ V.home ++ "/Bin/".toList ++ b := hs.trans (List.suffix_append _ _)
      have a2 : ("/params.tx".toList ++ ['t']) <:+ V.home ++ "/Bin/".toList ++ b := by rw [e]; exact List.suffix_append _ _
      exact absurd (suffix_last a1 a2) (by decide)
    rcases start_cases V X dir' (o2.set "parameter_file" (.str "params.txt".toList)) (w2.put (dir' ++ "/params.txt".toList)
        (paramsText V (o2.set "parameter_file" (.str "params.txt".toList))))
      with ⟨w', e, hs⟩ | ⟨bin, prog, tv, hbn, hprog, -, -, o3, -, ⟨lv, th, hl, ht, hs⟩ | hs⟩
    · rw [hs] at h; cases h
    all_goals
      rw [get_set_ne (by decide), g _ (by decide) (by decide) (by decide), hb] at hbn
      injection hbn with hbn
      injection hbn with hbn
      subst hbn
      rw [put_files_ne hnew] at hprog
      refine ⟨prog, hprog, ?_⟩
    · rw [hs, here_ready hl ht hp (by rw [put_files_self]; rfl)]
      dsimp only
      rw [runHere_keep hb3 hb2, chmod_files, put_files_self]
    · have s_ : ("/run.slurm".toList : List Char) = '/' :: "run.slurm".toList := rfl
      rw [hs] at h ⊢
      unfold start.submit at h ⊢
      split
      · rename_i e he
        rw [he] at h
        cases h
      · dsimp only
        rw [s_, put_files_ne (dir_inj _ _ _ hb4), put_files_self]

/-! ### examples -/

/-- the example object, for another computer, with its runs in `place` -/
noncomputable def demoC (place : List Char) : Obj CR :=
  ((((demoO (CR.fin demoS.spin)).set "computer" (.str "della".toList)).set "out_stem" (.str place)).set "memory" (.int 512)).set "email"
    (.str "me@u".toList)

theorem demoC_describes (place : List Char) : Describes demoV demoStod (demoC place) (demoS.map CR.fin) :=
  (((demo_describes.set (by decide) _).set (by decide) _).set (by decide) _).set (by decide) _

theorem demoC_clean {place : List Char} (h : '\n' ∉ place) : Clean demoV (demoC place) :=
  ((((demo_clean _).set (v := .str "della".toList) (by decide) (by decide) (by show '\n' ∉ "della".toList; decide)).set (v := .str place)
    (by decide) (by decide) h).set (v := .int 512) (by decide) (by decide) (fun hn => absurd (toStr_white 512 _ hn) (by decide))).set
    (v := .str "me@u".toList) (by decide) (by decide) (by show '\n' ∉ "me@u".toList; decide)

theorem demoC_ready (E : Env CR) {place : List Char} (h : place ∈ ["/tigress".toList, "runs".toList]) :
    Ready demoV (demoX E) (demoC place) demoW (place ++ "/run1".toList) "default_fd.run".toList E := by
  refine ⟨⟨"/run1".toList, Or.inl rfl, Or.inr ⟨"della".toList, place, rfl, by decide, rfl, rfl⟩⟩, ⟨.bool false, rfl, by rintro (h | h) <;> cases h⟩, rfl, demo_plain, by decide,
    ⟨['x'], rfl, rfl⟩, ⟨.bool true, rfl⟩, ⟨.int 1, rfl⟩, ⟨.int 4, rfl⟩, ?_, ?_⟩
  · have : ∀ place ∈ ["/tigress".toList, "runs".toList], demoW.dirs (place ++ "/run1".toList) = false := by decide
    exact this _ h
  · have key : ∀ place ∈ ["/tigress".toList, "runs".toList], ∀ p, p = place ++ "/run1".toList →
        demoW.files p = none ∧ ∀ k < p.length, p[k]? = some '/' → demoW.files (p.take k) = none := by
      intro place hp p e
      subst e
      revert place
      decide
    intro d hd
    rcases hd with rfl | ⟨r, hr⟩
    · exact (key _ h _ rfl).1
    · obtain ⟨k, h1, h2, h3⟩ := split_at hr
      rw [h3]
      exact (key _ h _ rfl).2 k h1 h2

/-- the example object, asking for recompilation -/
noncomputable def demoRe : Obj CR := (demoO (CR.fin demoS.spin)).set "recompile" (.bool true)

/-- Non-vacuity of C85_recompiled_binary_used: its launch (with a `make` that finds everything up to date) returns. -/
example : ∃ E o', demoRe.get "recompile" = .ok (.bool true) ∧ EqTrue (.bool true : PyObj CR) ∧ demoRe.get "bin_name" = .ok (.str "default_fd.run".toList) ∧
    Plain "default_fd.run".toList ∧ ".run".toList <:+ "default_fd.run".toList ∧ DirOf demoV demoRe "/u/Output/run1".toList ∧
    (launch_run demoV (demoX E) demoRe demoW).obj = .ok o' := by
  obtain ⟨E, hE⟩ := launchDemo_valid
  have hD : Describes demoV demoStod demoRe (demoS.map CR.fin) := demo_describes.set (by decide) _
  obtain ⟨clv, hcl, -⟩ := hD.cl
  have h1 := derived_eq hcl hD demo_regular
  obtain ⟨o1, ho1⟩ : ∃ o1, o1 = derivedObj demoRe (horizon (demoS.map CR.fin).mass (demoS.map CR.fin).spin) (params intCR (demoS.map CR.fin)).rl
    (params intCR (demoS.map CR.fin)).ru (params intCR (demoS.map CR.fin)).Rmin (params intCR (demoS.map CR.fin)).dt clv
    (params intCR (demoS.map CR.fin)).nt (params intCR (demoS.map CR.fin)).t_step_save := ⟨_, rfl⟩
  rw [← ho1] at h1
  have g1 : ∀ n, n ∉ derivedNames → o1.get n = demoRe.get n := fun n hn => derived_get h1 hn
  have hd : DirOf demoV demoRe "/u/Output/run1".toList := ⟨"/run1".toList, Or.inl rfl, Or.inl ⟨rfl, rfl⟩⟩
  obtain ⟨stem, -, h2⟩ := choose_eq (dirOf_congr hd fun n hn => g1 n (by
    intro hm
    simp only [List.mem_cons, List.not_mem_nil, or_false, derivedNames] at hn hm
    rcases hn with rfl | rfl | rfl | rfl | rfl | rfl | rfl | rfl <;> simp at hm))
  obtain ⟨o2, ho2⟩ : ∃ o2, o2 = (o1.set "output_stem" (.str stem)).set "output_dir" (.str "/u/Output/run1".toList) := ⟨_, rfl⟩
  rw [← ho2] at h2
  have hr := demo_ready E (o := demoO (CR.fin demoS.spin)) (stem := "/run1".toList) rfl (by decide) (by
    intro n hn
    simp only [List.mem_cons, List.not_mem_nil, or_false] at hn
    rcases hn with rfl | rfl | rfl | rfl | rfl | rfl <;> rfl)
  have h3 := makedirs_eq hr.new hr.no_file
  have g : ∀ n, n ∉ derivedNames → n ≠ "output_dir" → n ≠ "output_stem" → o2.get n = demoRe.get n := fun n a b c => by
    rw [choose_get h2 c b, g1 n a]
  obtain ⟨w1, hw1⟩ : ∃ w1 : World, w1 = { demoW with dirs := fun q => ancestorOrSelf q ("/u/Output".toList ++ "/run1".toList) || demoW.dirs q } :=
    ⟨_, rfl⟩
  rw [← hw1] at h3
  have hre : then_recompile (demoX E) o2 w1 = .ok w1 := by
    unfold then_recompile
    rw [g _ (by decide) (by decide) (by decide), show demoRe.get "bin_name" = .ok (.str "default_fd.run".toList) from rfl]
    rfl
  have hrun : launch_run demoV (demoX E) demoRe demoW = start demoV (demoX E) "/u/Output/run1".toList
      (o2.set "parameter_file" (.str "params.txt".toList))
      (w1.put ("/u/Output/run1".toList ++ "/params.txt".toList) (paramsText demoV (o2.set "parameter_file" (.str "params.txt".toList)))) := by
    unfold launch_run
    rw [h1]
    dsimp only
    rw [h2]
    dsimp only
    rw [show demoW.makedirs "/u/Output/run1".toList = .ok w1 from h3]
    dsimp only
    rw [g _ (by decide) (by decide) (by decide), show demoRe.get "recompile" = .ok (.bool true) from rfl]
    dsimp only
    rw [if_pos (show (PyObj.bool true : PyObj CR).isTrue = true from rfl), hre]
  have hst := start_ready (V := demoV) (X := demoX E) (dir := "/u/Output/run1".toList) (o := o2.set "parameter_file" (.str "params.txt".toList))
    (w := w1.put ("/u/Output/run1".toList ++ "/params.txt".toList) (paramsText demoV (o2.set "parameter_file" (.str "params.txt".toList))))
    (bin := "default_fd.run".toList) (tv := .bool true) (prog := ['x']) (c := .str "home".toList)
    (by rw [get_set_ne (by decide), g _ (by decide) (by decide) (by decide)]; rfl)
    (by rw [put_files_ne (by decide), hw1]; rfl) (by decide)
    (by rw [get_set_ne (by decide), g _ (by decide) (by decide) (by decide)]; rfl)
    (by rw [get_set_ne (by decide), g _ (by decide) (by decide) (by decide)]; rfl)
  rw [if_pos isHome_home, here_ready (lv := .int 1) (th := .int 4)
    (by rw [get_set_ne (by decide), get_set_ne (by decide), get_set_ne (by decide), g _ (by decide) (by decide) (by decide)]; rfl)
    (by rw [get_set_ne (by decide), get_set_ne (by decide), get_set_ne (by decide), g _ (by decide) (by decide) (by decide)]; rfl) demo_plain
    (by rw [put_files_self]; rfl)] at hst
  refine ⟨E, ((o2.set "parameter_file" (.str "params.txt".toList)).set "output_file" (.str "out.txt".toList)).set "run_str"
    (.str (runStr (PyObj.bool true : PyObj CR).truthy "default_fd.run".toList)), rfl, Or.inl rfl, rfl, demo_plain, by decide, hd, ?_⟩
  rw [hrun, hst]

/-- Non-vacuity of C99: the example object, launched on a cluster. -/
example : ∃ E, demoW.Tree ∧ Queued demoV (demoC "/tigress".toList) "/tigress/run1".toList ∧
    Ready demoV (demoX E) (demoC "/tigress".toList) demoW "/tigress/run1".toList "default_fd.run".toList E ∧
    Describes demoV (demoX E).stod (demoC "/tigress".toList) (demoS.map CR.fin) ∧ Regular demoV (demoX E).stod intCR (demoS.map CR.fin) ∧
    Clean demoV (demoC "/tigress".toList) ∧ CleanEnv demoV := by
  obtain ⟨E, hE⟩ := launchDemo_valid
  refine ⟨E, demo_tree, ⟨⟨_, rfl, by decide⟩, rfl, by decide, ⟨_, rfl⟩, ⟨_, rfl⟩, ⟨_, rfl⟩, ?_⟩, demoC_ready E (by decide), demoC_describes _, demo_regular,
    demoC_clean (by decide), demo_cleanEnv⟩
  intro v hv
  have : v = .int 1 := by
    injection hv with hv
    exact hv.symm
  subst this
  constructor
  · show ' ' ∉ Text.toStr 1
    decide
  · show (Text.toStr 1).head? ≠ some '$'
    decide

/-- ... and with a relative path. -/
example : ∃ E, demoW.Tree ∧ (demoC "runs".toList).get "computer" = .ok (.str "della".toList) ∧
    Ready demoV (demoX E) (demoC "runs".toList) demoW "runs/run1".toList "default_fd.run".toList E ∧
    Describes demoV (demoX E).stod (demoC "runs".toList) (demoS.map CR.fin) ∧ Regular demoV (demoX E).stod intCR (demoS.map CR.fin) ∧
    Clean demoV (demoC "runs".toList) ∧ (∃ v, (demoC "runs".toList).get "walltime" = .ok v) ∧ (∃ v, (demoC "runs".toList).get "memory" = .ok v) ∧
    (∃ v, (demoC "runs".toList).get "email" = .ok v) ∧ ∃ a r, "runs/run1".toList = a :: r ∧ a.isAlphanum = true := by
  obtain ⟨E, hE⟩ := launchDemo_valid
  exact ⟨E, demo_tree, rfl, demoC_ready E (by decide), demoC_describes _, demo_regular, demoC_clean (by decide), ⟨_, rfl⟩, ⟨_, rfl⟩, ⟨_, rfl⟩,
    ⟨_, _, rfl, by decide⟩⟩

end SFK
