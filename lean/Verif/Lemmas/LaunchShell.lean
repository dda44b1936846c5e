import Verif.Lemmas.LaunchRun
import Mathlib.Tactic.Tauto
/-
The shell of Model/LaunchRun on the lines the launcher makes.
-/
namespace SFK
open Scalar Launcher
namespace Launcher
variable {α : Type} [Scalar α]
variable {V : PyEnv α} {X : Machine α} {o : Obj α} {w : World} {dir bin : List Char}

theorem cut_of_not_mem {c : Char} {s : List Char} (h : c ∉ s) : cut c s = [s] := by
  induction s with
  | nil => rfl
  | cons a r ih =>
    simp only [List.mem_cons, not_or] at h
    unfold cut
    rw [if_neg (fun e => h.1 e.symm), ih h.2]

theorem cut_append {c : Char} {s r : List Char} (h : c ∉ s) : cut c (s ++ c :: r) = s :: cut c r := by
  induction s with
  | nil =>
    show cut c (c :: r) = _
    conv_lhs => unfold cut
    rw [if_pos rfl]
  | cons a s ih =>
    simp only [List.mem_cons, not_or] at h
    show cut c (a :: (s ++ c :: r)) = _
    conv_lhs => unfold cut
    rw [if_neg (fun e => h.1 e.symm), ih h.2]

theorem shWords_word {s r : List Char} (h : ' ' ∉ s) (h0 : s ≠ []) : shWords (s ++ ' ' :: r) = s :: shWords r := by
  unfold shWords
  rw [cut_append h, List.filter_cons_of_pos (by simpa using h0)]

theorem shWords_one {s : List Char} (h : ' ' ∉ s) (h0 : s ≠ []) : shWords s = [s] := by
  unfold shWords
  rw [cut_of_not_mem h, List.filter_cons_of_pos (by simpa using h0)]
  rfl

theorem Plain.no_space (h : Plain bin) : ' ' ∉ bin := fun hm => by
  rcases h.2 _ hm with h | h | h | h <;> exact absurd h (by decide)

theorem Plain.no_newline (h : Plain bin) : '\n' ∉ bin := fun hm => by
  rcases h.2 _ hm with h | h | h | h <;> exact absurd h (by decide)

theorem Plain.no_slash (h : Plain bin) : '/' ∉ bin := fun hm => by
  rcases h.2 _ hm with h | h | h | h <;> exact absurd h (by decide)

theorem chmod_files (p : List Char) : (w.chmod p).files = w.files := rfl
theorem chmod_dirs (p : List Char) : (w.chmod p).dirs = w.dirs := rfl

/-- what the command does, put directly -/
def runHere (X : Machine α) (dir bin : List Char) (w : World) : World × Option (Prog α Unit) :=
  let w := w.put (dir ++ "/out.txt".toList) []
  match (w.files (dir ++ '/' :: bin)).bind X.build with
  | Option.none => (w, Option.none)
  | some E =>
    let p := Main.main E X.io X.stod X.junk (fun q => w.files (resolve dir q)) ["params.txt".toList, ".".toList]
    let w := p.events.foldl (World.event dir) w
    (w.put (dir ++ "/out.txt".toList) (X.stdout p.events), some p)

theorem run_words (hb : Plain bin) (t : Bool) : shWords (runStr t bin)
    = (if t then ["time".toList] else []) ++ ["./".toList ++ bin, "params.txt".toList, ".".toList, "2>&1".toList, "|".toList, "tee".toList,
      "out.txt".toList] := by
  have hs : ' ' ∉ "./".toList ++ bin := by
    simp only [List.mem_append, not_or]
    exact ⟨by decide, hb.no_space⟩
  have e : "./".toList ++ bin ++ " params.txt . 2>&1 | tee out.txt".toList
      = ("./".toList ++ bin) ++ ' ' :: "params.txt . 2>&1 | tee out.txt".toList := rfl
  have e2 : shWords "params.txt . 2>&1 | tee out.txt".toList
      = ["params.txt".toList, ".".toList, "2>&1".toList, "|".toList, "tee".toList, "out.txt".toList] := by decide
  have h1 : shWords ("./".toList ++ bin ++ " params.txt . 2>&1 | tee out.txt".toList)
      = ["./".toList ++ bin, "params.txt".toList, ".".toList, "2>&1".toList, "|".toList, "tee".toList, "out.txt".toList] := by
    rw [e, shWords_word hs (by simp), e2]
  cases t with
  | false =>
    show shWords ([] ++ "./".toList ++ bin ++ _) = _
    rw [List.nil_append]
    exact h1
  | true =>
    have e3 : runStr true bin = "time".toList ++ ' ' :: ("./".toList ++ bin ++ " params.txt . 2>&1 | tee out.txt".toList) := by
      show "time ".toList ++ "./".toList ++ bin ++ _ = _
      rw [show "time ".toList = "time".toList ++ [' '] from rfl]
      simp only [List.append_assoc, List.cons_append, List.nil_append]
    rw [e3, shWords_word (by decide) (by decide), h1]
    rfl

theorem pipeline_run (t : Bool) (bin : List Char) :
    pipeline ((if t then ["time".toList] else []) ++ ["./".toList ++ bin, "params.txt".toList, ".".toList, "2>&1".toList, "|".toList, "tee".toList,
      "out.txt".toList]) = some ("./".toList ++ bin, ["params.txt".toList, ".".toList], "out.txt".toList) := by
  cases t with
  | true => rfl
  | false =>
    unfold pipeline
    simp only [Bool.false_eq_true, if_false, List.nil_append]
    rw [if_neg]
    · rfl
    · intro h
      injection h with h
      have : ("./".toList ++ bin).head? = some 't' := by rw [h]; rfl
      exact absurd this (by show some '.' ≠ some 't'; decide)

theorem shLine_pipe {s : Sh α} {line w : List Char} {ws : List (List Char)} {prog out : List Char} {args : List (List Char)}
    (h : shWords line = w :: ws) (h1 : w.head? ≠ some '#') (h2 : w ≠ "export".toList) (h3 : w ≠ "chmod".toList)
    (h4 : pipeline (w :: ws) = some (prog, args, out)) : shLine X dir s line = runProg X dir prog args out s := by
  unfold shLine
  rw [h]
  dsimp only
  rw [if_neg h1, if_neg h2, if_neg h3, h4]

theorem shLine_run (hb : Plain bin) (t : Bool) (s : Sh α) : shLine X dir s (runStr t bin)
    = runProg X dir ("./".toList ++ bin) ["params.txt".toList, ".".toList] "out.txt".toList s := by
  have hw := run_words hb t
  have hp := pipeline_run t bin
  have ne : ∀ r : List Char, r.head? ≠ some '.' → "./".toList ++ bin ≠ r := by
    rintro r h rfl
    exact h rfl
  cases t with
  | true => exact shLine_pipe hw (by decide) (by decide) (by decide) hp
  | false => exact shLine_pipe hw (by show some '.' ≠ some '#'; decide) (ne _ (by decide)) (ne _ (by decide)) hp

theorem shLine_chmod (hb : Plain bin) (s : Sh α) : shLine X dir s ("chmod 755 ".toList ++ bin)
    = { s with world := s.world.chmod (dir ++ '/' :: bin) } := by
  have e : "chmod 755 ".toList ++ bin = "chmod".toList ++ ' ' :: ("755".toList ++ ' ' :: bin) := rfl
  have hw : shWords ("chmod 755 ".toList ++ bin) = ["chmod".toList, "755".toList, bin] := by
    rw [e, shWords_word (by decide) (by decide), shWords_word (by decide) (by decide), shWords_one hb.no_space hb.1]
  have hr : resolve dir bin = dir ++ '/' :: bin ∨ ∃ r, bin = '.' :: '/' :: r ∨ bin = '/' :: r := by
    unfold resolve
    split
    · exact Or.inr ⟨_, Or.inr rfl⟩
    · exact Or.inr ⟨_, Or.inl rfl⟩
    · exact Or.inl rfl
  have hr' : resolve dir bin = dir ++ '/' :: bin := by
    rcases hr with h | ⟨r, h | h⟩
    · exact h
    · exact absurd (by rw [h]; simp) hb.no_slash
    · exact absurd (by rw [h]; simp) hb.no_slash
  unfold shLine
  rw [hw]
  dsimp only
  rw [if_neg (by decide), if_neg (by decide), if_pos rfl]
  show { s with world := s.world.chmod (resolve dir bin) } = _
  rw [hr']

theorem put_exec {p t q : List Char} (h : w.exec q = true) (hf : (w.files q).isSome) : (w.put p t).exec q = true := by
  unfold World.put
  dsimp only
  rw [h, Bool.true_and, Bool.not_eq_true', Bool.and_eq_false_iff]
  by_cases e : q = p
  · subst e
    right
    rw [Option.isNone_eq_false_iff]
    exact hf
  · exact Or.inl (beq_false_of_ne e)

theorem runProg_here (s : Sh α) (hx : s.world.exec (dir ++ '/' :: bin) = true) (hf : (s.world.files (dir ++ '/' :: bin)).isSome) :
    runProg X dir ("./".toList ++ bin) ["params.txt".toList, ".".toList] "out.txt".toList s
      = ⟨(runHere X dir bin s.world).1, s.env, (runHere X dir bin s.world).2⟩ := by
  have r1 : resolve dir ("./".toList ++ bin) = dir ++ '/' :: bin := rfl
  have r2 : resolve dir "out.txt".toList = dir ++ "/out.txt".toList := rfl
  unfold runProg runHere
  dsimp only
  rw [r1, r2, if_pos (put_exec hx hf)]
  cases ((s.world.put (dir ++ "/out.txt".toList) []).files (dir ++ '/' :: bin)).bind X.build <;> rfl

/-- `chmod` and the command, as the launcher gives them on the local computer -/
theorem home_run (hb : Plain bin) (t : Bool) (s : Sh α) (hf : (s.world.files (dir ++ '/' :: bin)).isSome) :
    [("chmod 755 ".toList ++ bin), runStr t bin].foldl (shLine X dir) s
      = ⟨(runHere X dir bin (s.world.chmod (dir ++ '/' :: bin))).1, s.env, (runHere X dir bin (s.world.chmod (dir ++ '/' :: bin))).2⟩ := by
  show shLine X dir (shLine X dir s _) _ = _
  rw [shLine_chmod hb, shLine_run hb, runProg_here]
  · show (_ == _ || _) = true
    rw [beq_self_eq_true, Bool.true_or]
  · exact hf

end Launcher
end SFK
