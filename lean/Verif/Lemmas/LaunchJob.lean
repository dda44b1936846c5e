import Verif.Lemmas.LaunchShell
/-
The job script of Model/LaunchRun, line by line.
-/
namespace SFK
open Scalar Launcher
namespace Launcher
variable {α : Type} [Scalar α]
variable {V : PyEnv α} {X : Machine α} {o : Obj α} {w : World} {dir bin : List Char}

def unlines (ls : List (List Char)) : List Char := ls.flatMap (· ++ ['\n'])

theorem cut_unlines {ls : List (List Char)} (h : ∀ l ∈ ls, '\n' ∉ l) : cut '\n' (unlines ls) = ls ++ [[]] := by
  induction ls with
  | nil => rfl
  | cons l ls ih =>
    have e : unlines (l :: ls) = l ++ '\n' :: unlines ls := by
      simp only [unlines, List.flatMap_cons, List.append_assoc, List.cons_append, List.nil_append]
    rw [e, cut_append (h l List.mem_cons_self), ih fun l hl => h l (List.mem_cons_of_mem _ hl)]
    rfl

/-- the script's lines -/
def slurmLines (wt mem mail nth nlv bin run : List Char) : List (List Char) :=
  ["#!/bin/sh".toList, "#SBATCH -J scalar\t\t# job name".toList, "#SBATCH -t ".toList ++ wt ++ "\t\t# walltime (dd:hh:mm:ss)".toList,
    "#SBATCH -p physics\t\t# partition/queue name".toList, "#SBATCH --mem=".toList ++ mem ++ "MB".toList,
    "#SBATCH --output=out.txt\t\t# file for STDOUT".toList, "#SBATCH --mail-user=".toList ++ mail ++ "\t\t# Mail  id of the user".toList,
    "#SBATCH --nodes=1".toList, "#SBATCH --ntasks-per-node=1".toList, "#SBATCH --cpus-per-task=".toList ++ nth, [],
    "export OMP_MAX_ACTIVE_LEVELS=".toList ++ nlv, [], "export OMP_NUM_THREADS=$SLURM_CPUS_PER_TASK".toList, "chmod 755 ".toList ++ bin, [], run]

theorem slurmText_eq {wt mem mail nth nlv : PyObj α} {run : List Char} (h1 : o.get "walltime" = .ok wt) (h2 : o.get "memory" = .ok mem)
    (h3 : o.get "email" = .ok mail) (h4 : o.get "num_threads" = .ok nth) (h5 : o.get "num_omp_levels" = .ok nlv) :
    slurmText V o bin run = .ok (unlines (slurmLines (V.str wt) (V.str mem) (V.str mail) (V.str nth) (V.str nlv) bin run)) := by
  unfold slurmText
  rw [h1, ok_bind, h2, ok_bind, h3, ok_bind, h4, ok_bind, h5, ok_bind]
  have e1 : "#!/bin/sh\n".toList = "#!/bin/sh".toList ++ ['\n'] := rfl
  have e2 : "#SBATCH -J scalar\t\t# job name\n".toList = "#SBATCH -J scalar\t\t# job name".toList ++ ['\n'] := rfl
  have e3 : "\t\t# walltime (dd:hh:mm:ss)\n".toList = "\t\t# walltime (dd:hh:mm:ss)".toList ++ ['\n'] := rfl
  have e4 : "#SBATCH -p physics\t\t# partition/queue name\n".toList = "#SBATCH -p physics\t\t# partition/queue name".toList ++ ['\n'] := rfl
  have e5 : "MB\n".toList = "MB".toList ++ ['\n'] := rfl
  have e6 : "#SBATCH --output=out.txt\t\t# file for STDOUT\n".toList = "#SBATCH --output=out.txt\t\t# file for STDOUT".toList ++ ['\n'] := rfl
  have e7 : "\t\t# Mail  id of the user\n".toList = "\t\t# Mail  id of the user".toList ++ ['\n'] := rfl
  have e8 : "#SBATCH --nodes=1\n#SBATCH --ntasks-per-node=1\n".toList
      = "#SBATCH --nodes=1".toList ++ (['\n'] ++ ("#SBATCH --ntasks-per-node=1".toList ++ ['\n'])) := rfl
  have e9 : "\nexport OMP_MAX_ACTIVE_LEVELS=".toList = ['\n'] ++ "export OMP_MAX_ACTIVE_LEVELS=".toList := rfl
  have e10 : "\nexport OMP_NUM_THREADS=$SLURM_CPUS_PER_TASK\n".toList
      = ['\n'] ++ ("export OMP_NUM_THREADS=$SLURM_CPUS_PER_TASK".toList ++ ['\n']) := rfl
  have e11 : "\n".toList = ['\n'] := rfl
  rw [e1, e2, e3, e4, e5, e6, e7, e8, e9, e10, e11]
  unfold unlines slurmLines
  simp only [List.flatMap_cons, List.flatMap_nil, List.append_assoc, List.nil_append, List.append_nil]

theorem shLine_nil (s : Sh α) : shLine X dir s [] = s := rfl

theorem shLine_comment (s : Sh α) (r : List Char) : shLine X dir s ("#SBATCH".toList ++ ' ' :: r) = s := by
  unfold shLine
  rw [shWords_word (by decide) (by decide)]
  rfl

theorem shLine_export {s : Sh α} {x : List Char} (hx : ' ' ∉ x) (h0 : x ≠ []) :
    shLine X dir s ("export".toList ++ ' ' :: x) = { s with env := doExport s.env x } := by
  unfold shLine
  rw [shWords_word (by decide) (by decide), shWords_one hx h0]
  rfl

theorem doExport_levels {env : List (List Char × List Char)} {n : List Char} (hn : n.head? ≠ some '$') :
    doExport env ("OMP_MAX_ACTIVE_LEVELS=".toList ++ n) = ("OMP_MAX_ACTIVE_LEVELS".toList, n) :: env := by
  have h1 : ("OMP_MAX_ACTIVE_LEVELS=".toList ++ n).dropWhile (· ≠ '=') = '=' :: n := rfl
  have h2 : ("OMP_MAX_ACTIVE_LEVELS=".toList ++ n).takeWhile (· ≠ '=') = "OMP_MAX_ACTIVE_LEVELS".toList := rfl
  unfold doExport
  rw [h1, h2]
  dsimp only
  split
  · exact absurd rfl hn
  · rfl

/-- The job: whatever the queue's settings, `chmod` and the command are given to the shell, with the threads and levels asked for. -/
theorem runJob_eq {wt mem mail nth nlv : List Char} (h1 : '\n' ∉ wt) (h2 : '\n' ∉ mem) (h3 : '\n' ∉ mail) (h4 : '\n' ∉ nth) (h5 : '\n' ∉ nlv)
    (hb : Plain bin) (hs : ' ' ∉ nlv) (hd : nlv.head? ≠ some '$') (t : Bool) (hf : (w.files (dir ++ '/' :: bin)).isSome) :
    runJob X dir (unlines (slurmLines wt mem mail nth nlv bin (runStr t bin))) w
      = ⟨(runHere X dir bin (w.chmod (dir ++ '/' :: bin))).1,
        [("OMP_NUM_THREADS".toList, nth), ("OMP_MAX_ACTIVE_LEVELS".toList, nlv), ("SLURM_CPUS_PER_TASK".toList, nth)],
        (runHere X dir bin (w.chmod (dir ++ '/' :: bin))).2⟩ := by
  have hcut : cut '\n' (unlines (slurmLines wt mem mail nth nlv bin (runStr t bin))) = slurmLines wt mem mail nth nlv bin (runStr t bin) ++ [[]] := by
    apply cut_unlines
    intro l hl
    simp only [slurmLines, List.mem_cons, List.not_mem_nil, or_false] at hl
    rcases hl with rfl | rfl | rfl | rfl | rfl | rfl | rfl | rfl | rfl | rfl | rfl | rfl | rfl | rfl | rfl | rfl | rfl
    all_goals try simp only [List.mem_append, not_or]
    · decide
    · decide
    · exact ⟨⟨by decide, h1⟩, by decide⟩
    · decide
    · exact ⟨⟨by decide, h2⟩, by decide⟩
    · decide
    · exact ⟨⟨by decide, h3⟩, by decide⟩
    · decide
    · decide
    · exact ⟨by decide, h4⟩
    · decide
    · exact ⟨by decide, h5⟩
    · decide
    · decide
    · exact ⟨by decide, hb.no_newline⟩
    · decide
    · unfold runStr
      simp only [List.mem_append, not_or]
      refine ⟨⟨⟨?_, by decide⟩, hb.no_newline⟩, by decide⟩
      split <;> decide
  have hdir : directive "#SBATCH --cpus-per-task=".toList (slurmLines wt mem mail nth nlv bin (runStr t bin) ++ [[]]) = some nth := rfl
  unfold runJob
  rw [hcut, hdir]
  dsimp only
  rw [List.foldl_append]
  unfold slurmLines
  simp only [List.foldl_cons, List.foldl_nil, shLine_nil]
  have c : ∀ (s : Sh α) (r l : List Char), l = "#SBATCH".toList ++ ' ' :: r → shLine X dir s l = s := fun s r l e => by rw [e, shLine_comment]
  have c0 : ∀ s : Sh α, shLine X dir s "#!/bin/sh".toList = s := fun s => rfl
  rw [c0, c _ _ _ (show "#SBATCH -J scalar\t\t# job name".toList = "#SBATCH".toList ++ ' ' :: "-J scalar\t\t# job name".toList from rfl),
    c _ _ _ (show "#SBATCH -t ".toList ++ wt ++ "\t\t# walltime (dd:hh:mm:ss)".toList
      = "#SBATCH".toList ++ ' ' :: ("-t ".toList ++ wt ++ "\t\t# walltime (dd:hh:mm:ss)".toList) from rfl),
    c _ _ _ (show "#SBATCH -p physics\t\t# partition/queue name".toList = "#SBATCH".toList ++ ' ' :: "-p physics\t\t# partition/queue name".toList from rfl),
    c _ _ _ (show "#SBATCH --mem=".toList ++ mem ++ "MB".toList = "#SBATCH".toList ++ ' ' :: ("--mem=".toList ++ mem ++ "MB".toList) from rfl),
    c _ _ _ (show "#SBATCH --output=out.txt\t\t# file for STDOUT".toList = "#SBATCH".toList ++ ' ' :: "--output=out.txt\t\t# file for STDOUT".toList from rfl),
    c _ _ _ (show "#SBATCH --mail-user=".toList ++ mail ++ "\t\t# Mail  id of the user".toList
      = "#SBATCH".toList ++ ' ' :: ("--mail-user=".toList ++ mail ++ "\t\t# Mail  id of the user".toList) from rfl),
    c _ _ _ (show "#SBATCH --nodes=1".toList = "#SBATCH".toList ++ ' ' :: "--nodes=1".toList from rfl),
    c _ _ _ (show "#SBATCH --ntasks-per-node=1".toList = "#SBATCH".toList ++ ' ' :: "--ntasks-per-node=1".toList from rfl),
    c _ _ _ (show "#SBATCH --cpus-per-task=".toList ++ nth = "#SBATCH".toList ++ ' ' :: ("--cpus-per-task=".toList ++ nth) from rfl)]
  rw [show "export OMP_MAX_ACTIVE_LEVELS=".toList ++ nlv = "export".toList ++ ' ' :: ("OMP_MAX_ACTIVE_LEVELS=".toList ++ nlv) from rfl,
    shLine_export (by simp only [List.mem_append, not_or]; exact ⟨by decide, hs⟩) (by simp), doExport_levels hd]
  rw [show "export OMP_NUM_THREADS=$SLURM_CPUS_PER_TASK".toList = "export".toList ++ ' ' :: "OMP_NUM_THREADS=$SLURM_CPUS_PER_TASK".toList from rfl,
    shLine_export (by decide) (by decide)]
  have hx : doExport [("OMP_MAX_ACTIVE_LEVELS".toList, nlv), ("SLURM_CPUS_PER_TASK".toList, nth)] "OMP_NUM_THREADS=$SLURM_CPUS_PER_TASK".toList
      = [("OMP_NUM_THREADS".toList, nth), ("OMP_MAX_ACTIVE_LEVELS".toList, nlv), ("SLURM_CPUS_PER_TASK".toList, nth)] := rfl
  dsimp only
  rw [hx]
  exact home_run (X := X) (dir := dir) hb t _ hf

end Launcher
end SFK
