import Verif.Props.Build
/-
C116: what cleaning removes.
-/
namespace SFK
open Build

variable {mk : Make} {t : Tree}

theorem visible_of {q : Name} (h : Plain q) : visible q = true := by
  unfold visible
  rw [Bool.and_eq_true]
  constructor
  · cases q with
    | nil => rfl
    | cons a r =>
      have : a ≠ '.' := fun e => h.1 r (by rw [e])
      simpa using this
  · simpa using h.2

/-- **C116.** Whatever was done before: after `make clean` or `make clean_Source` (and possibly edits, runs and other cleaning) the next build compiles every
part of its binary with the switches asked for and from the sources as they are, whatever make keeps. -/
theorem C116_build_after_clean (h : t.Sane) (cs : List Cmd) {c : Cmd} (hc : RemovesObjects c) (cs' : List Cmd) (hn : ∀ c ∈ cs', ¬ Makes c)
    {vars : List (Name × Name)} {goal : Option Name} {b : Name} (hg : Builds vars goal b) {fl : Flags} (hf : AsksFor vars fl) {s : Name}
    (hs : s ∈ sources) :
    (steps mk (cs ++ [c] ++ cs' ++ [.make vars goal]) t).Has b s fl ∧ (steps mk (cs ++ [c] ++ cs' ++ [.make vars goal]) t).Current b s := by
  refine ⟨?_, C88_up_to_date h (cs ++ [c] ++ cs') hg hs⟩
  rw [steps_append, steps_append, steps_append]
  have h1 := steps_sane (mk := mk) cs h
  obtain ⟨t1, ht1⟩ : ∃ t1, t1 = steps mk cs t := ⟨_, rfl⟩
  rw [← ht1] at h1 ⊢
  have h2 := step_sane (mk := mk) h1 c
  have hst : stale headers (step mk t1 c) s = true := by
    apply stale_none
    rcases hc with rfl | rfl <;> rfl
  show (step mk (steps mk cs' (step mk t1 c)) (.make vars goal)).Has _ _ _
  rw [step_make hg, (asksFor_iff _ _).mp hf]
  obtain ⟨B, τ, h3, h4, -⟩ := (makeRun_facts (kept := mk.src) vars b (steps_sane (mk := mk) cs' h2)).own s (sources_objects hs) (steps_stale cs' hn h2 hst)
  exact ⟨B, τ, h3, h4⟩

/-- **C116.** `make clean` removes all objects and every binary with an ordinary name, and changes no source; what is in Bin afterwards
was there before. -/
theorem C116_clean_removes_what_was_built (t : Tree) :
    (∀ s, (step mk t .clean).obj s = none) ∧ (∀ b, Plain b → ".run".toList <:+ b → (step mk t .clean).bin b = none) ∧
    (∀ s, (step mk t .clean).cpp s = t.cpp s ∧ (step mk t .clean).hpp s = t.hpp s) ∧
    ∀ b, (step mk t .clean).bin b = none ∨ (step mk t .clean).bin b = t.bin b := by
  refine ⟨fun _ => rfl, fun b hb hr => ?_, fun _ => ⟨rfl, rfl⟩, fun b => ?_⟩
  · show (if visible b && isRun b then none else t.bin b) = none
    rw [if_pos]
    rw [visible_of hb, Bool.true_and]
    exact List.isSuffixOf_iff_suffix.mpr hr
  · show (if visible b && isRun b then none else t.bin b) = none ∨ (if visible b && isRun b then none else t.bin b) = t.bin b
    split
    · exact Or.inl rfl
    · exact Or.inr rfl

theorem build_out (kept : Name → Bool) (deps objs : List Name) (fl : Flags) (goal : Name) (t : Tree) :
    (tidy kept t (link objs goal (objs.foldl (compile deps fl) t))).out = t.out := by
  have key : ∀ (l : List Name) (u : Tree), (l.foldl (compile deps fl) u).out = u.out := by
    intro l
    induction l with
    | nil => exact fun _ => rfl
    | cons a l ih =>
      intro u
      rw [List.foldl_cons, ih]
      unfold compile
      split <;> rfl
  exact key objs t

theorem step_out {d : Name} (hd : t.out d = true) {c : Cmd} (hc : ¬ RemovesResults c) : (step mk t c).out d = true := by
  cases c with
  | editCpp s => exact hd
  | editHpp s => exact hd
  | make vars goal =>
    rcases step_make_cases (mk := mk) t vars goal with ⟨g, e⟩ | e
    · rw [e]
      exact (congrFun (build_out mk.src headers objects (flagsOf vars) g t) d).trans hd
    · rw [e]
      exact hd
  | test => exact (congrFun (build_out mk.test [] testObjects testFlags "test.run".toList t) d).trans hd
  | cleanSource => exact hd
  | cleanBin => exact hd
  | cleanOutput => exact absurd (Or.inl rfl) hc
  | clean => exact absurd (Or.inr rfl) hc
  | run q =>
    show (if d = q then true else t.out d) = true
    split
    · rfl
    · exact hd

/-- **C116.** Edits, builds, the tests, `make clean_Source`, `make clean_Bin` and further runs never remove the directory of a run's results. -/
theorem C116_results_kept_partial (cs : List Cmd) {d : Name} (hc : ∀ c ∈ cs, ¬ RemovesResults c) : ∀ {t : Tree}, t.out d = true →
    (steps mk cs t).out d = true := by
  induction cs with
  | nil => exact fun h => h
  | cons c cs ih =>
    exact fun h => ih (fun c hm => hc c (List.mem_cons_of_mem _ hm)) (step_out h (hc c List.mem_cons_self))

/-- **C116, the part that fails.** `make clean` removes not only what was built: whatever was done before, no results with an ordinary name are left in
Output, also when nothing was ever built. -/
theorem C116_clean_deletes_results (cs : List Cmd) (d : Name) (hd : Plain d) :
    (steps mk (cs ++ [.run d]) t).out d = true ∧ (steps mk (cs ++ [.run d, .clean]) t).out d = false := by
  rw [steps_append, steps_append]
  constructor
  · show (if d = d then true else _) = true
    rw [if_pos rfl]
  · show (if visible d then false else _) = false
    rw [if_pos (visible_of hd)]

/-- non-vacuity of C116: a name of a result directory, a history with builds of both kinds, a make that keeps all objects -/
example : ∃ (t : Tree) (mk : Make), t.Sane ∧ (∀ s, mk.src s = true) ∧ Plain "Run_1".toList ∧ Plain "default_fd.run".toList ∧
    RemovesObjects .clean ∧ ¬ RemovesResults .cleanBin ∧ (∀ c ∈ [Cmd.run "Run_1".toList, Cmd.editCpp "main".toList], ¬ Makes c) ∧
    (steps mk (config [] [] ++ [.clean] ++ [] ++ [.make [] none]) t).Has "default_fd.run".toList "grid".toList ⟨true, false, false, false⟩ := by
  obtain ⟨t, h1, h2⟩ := empty_tree
  refine ⟨t, ⟨fun _ => true, fun _ => true⟩, h1, fun _ => rfl, ⟨fun r e => ?_, by decide⟩, ⟨fun r e => ?_, by decide⟩, Or.inr rfl, ?_, ?_, ?_⟩
  · have : "Run_1".toList.head? = some '.' := congrArg List.head? e
    exact absurd this (by decide)
  · have : "default_fd.run".toList.head? = some '.' := congrArg List.head? e
    exact absurd this (by decide)
  · rintro (h | h) <;> cases h
  · intro c hc
    simp only [List.mem_cons, List.not_mem_nil, or_false] at hc
    rcases hc with rfl | rfl
    · rintro (h | ⟨_, _, h⟩) <;> cases h
    · rintro (h | ⟨_, _, h⟩) <;> cases h
  · exact (C116_build_after_clean h1 (config [] []) (Or.inr rfl) [] (by simp) (builds_default []) asks_plain (by decide)).1

end SFK
