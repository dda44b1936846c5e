import Verif.Props.Build
/-
C98: `make test` and the solver share the objects in Source.
-/
namespace SFK
open Build
variable {mk : Make} {t : Tree}

theorem tested_sources {s : Name} (h : s ∈ tested) : s ∈ sources := by
  have : ∀ s ∈ tested, s ∈ sources := by decide
  exact this s h

/-- **C98.** With a make that removes the objects it made: whatever was edited, built or cleaned before, `make test` compiles the tested sources with
the test program's switches, after the last change of the source and of all headers. -/
theorem C98_test_program_partial (h : t.Sane) (hc : t.Clean) (cs : List Cmd) {s : Name} (hs : s ∈ tested) (hk : mk.src s = false)
    (hk' : mk.test s = false) :
    (steps mk (cs ++ [.test]) t).Has "test.run".toList s ⟨false, true, true, false⟩ ∧ (steps mk (cs ++ [.test]) t).Current "test.run".toList s := by
  rw [steps_append]
  have hs1 := steps_sane (mk := mk) cs h
  have hn := steps_none hk hk' cs h (hc s)
  obtain ⟨t1, ht1⟩ : ∃ t1, t1 = steps mk cs t := ⟨_, rfl⟩
  rw [← ht1] at hs1 hn ⊢
  have f := makeTest_facts (kept := mk.test) hs1
  obtain ⟨B, τ, h1, h2, h3⟩ := f.own s (tested_objects hs) (stale_none hn)
  refine ⟨⟨B, τ, h1, h2⟩, B, τ, _, h1, h2, ?_, fun x _ => ?_⟩
  · show (makeTest mk.test t1).cpp s ≤ τ
    rw [f.cpp]
    exact Nat.le_trans (hs1.cpp s) (Nat.le_of_lt h3)
  · show (makeTest mk.test t1).hpp x ≤ τ
    rw [f.hpp]
    exact Nat.le_trans (hs1.hpp x) (Nat.le_of_lt h3)

/-- **C98.** Whatever make keeps and whatever happened before: the parts of the test program were compiled after the last change of their sources
`x.cpp`. -/
theorem C98_source_edits_tested (h : t.Sane) (cs : List Cmd) {s : Name} (hs : s ∈ tested) :
    ∃ b τ fl, (steps mk (cs ++ [.test]) t).bin "test.run".toList = some b ∧ b s = some (τ, fl) ∧ (steps mk (cs ++ [.test]) t).cpp s ≤ τ := by
  rw [steps_append]
  have hs1 := steps_sane (mk := mk) cs h
  obtain ⟨t1, ht1⟩ : ∃ t1, t1 = steps mk cs t := ⟨_, rfl⟩
  rw [← ht1] at hs1 ⊢
  have f := makeTest_facts (kept := mk.test) hs1
  cases hst : stale [] t1 s with
  | true =>
    obtain ⟨B, τ, h1, h2, h3⟩ := f.own s (tested_objects hs) hst
    refine ⟨B, τ, _, h1, h2, ?_⟩
    show (makeTest mk.test t1).cpp s ≤ τ
    rw [f.cpp]
    exact Nat.le_trans (hs1.cpp s) (Nat.le_of_lt h3)
  | false =>
    obtain ⟨o, ho, h1, -⟩ := stale_some hst
    obtain ⟨B, h3, h4⟩ := f.old s (tested_objects hs) o hst ho
    refine ⟨B, o.1, o.2, h3, h4, ?_⟩
    show (makeTest mk.test t1).cpp s ≤ o.1
    rw [f.cpp]
    exact h1

/-- the object a first `make test` leaves behind -/
theorem test_leaves (h : t.Sane) {s : Name} (hs : s ∈ tested) (hk : mk.test s = true) (hn : t.obj s = none) :
    ∃ τ, (step mk t .test).obj s = some (τ, testFlags) ∧ stale headers (step mk t .test) s = false := by
  have f := makeTest_facts (kept := mk.test) h
  obtain ⟨τ, h1, h2⟩ := f.left s (tested_objects hs) (stale_none hn) (Or.inl hk)
  refine ⟨τ, h2, stale_of h2 ?_ fun x _ => ?_⟩
  · show (makeTest mk.test t).cpp s ≤ τ
    rw [f.cpp]
    exact Nat.le_trans (h.cpp s) (Nat.le_of_lt h1)
  · show (makeTest mk.test t).hpp x ≤ τ
    rw [f.hpp]
    exact Nat.le_trans (h.hpp x) (Nat.le_of_lt h1)

/-- **C98.** ... but header edits are not picked up: with a make that keeps the object of a tested source, editing any header and running `make test`
again gives a test program whose part was compiled before the edit. -/
theorem C98_header_edits_missed (h : t.Sane) (cs : List Cmd) {s : Name} (hs : s ∈ tested) (hk : mk.test s = true)
    (hnew : (steps mk cs t).obj s = none) {x : Name} (_hx : x ∈ includes) :
    (steps mk (cs ++ [.test, .editHpp x, .test]) t).Outdated "test.run".toList s x := by
  rw [steps_append]
  have hs1 := steps_sane (mk := mk) cs h
  obtain ⟨t1, ht1⟩ : ∃ t1, t1 = steps mk cs t := ⟨_, rfl⟩
  rw [← ht1] at hs1 hnew ⊢
  obtain ⟨τ, h1, h2⟩ := test_leaves (mk := mk) hs1 hs hk hnew
  have hs2 := step_sane (mk := mk) hs1 .test
  obtain ⟨t2, ht2⟩ : ∃ t2, t2 = step mk t1 .test := ⟨_, rfl⟩
  rw [← ht2] at h1 h2 hs2
  have hs3 := step_sane (mk := mk) hs2 (.editHpp x)
  show (step mk (step mk (step mk t1 .test) (.editHpp x)) .test).Outdated _ _ _
  rw [← ht2]
  have f := makeTest_facts (kept := mk.test) hs3
  have hst : stale [] (step mk t2 (.editHpp x)) s = false := by
    obtain ⟨o, ho, h3, -⟩ := stale_some h2
    exact stale_of (t := step mk t2 (.editHpp x)) (o := o) ho h3 (by simp)
  obtain ⟨B, h3, h4⟩ := f.old s (tested_objects hs) (τ, testFlags) hst h1
  refine ⟨B, τ, _, h3, h4, ?_⟩
  show τ < (makeTest mk.test (step mk t2 (.editHpp x))).hpp x
  rw [f.hpp]
  show τ < if x = x then t2.now + 1 else t2.hpp x
  rw [if_pos rfl]
  exact Nat.lt_succ_of_le (hs2.obj s _ h1)

/-- **C98.** Running the tests changes later builds of the solver: with a make that keeps the object of a tested source in Test, once `make test` has
made it, that part of every binary built before the source or a header changes (or the objects are removed) has the test program's switches, whatever
the build command asks for. -/
theorem C98_tests_leak_into_solver (h : t.Sane) (cs : List Cmd) {s : Name} (hs : s ∈ tested) (hk : mk.test s = true)
    (hnew : (steps mk cs t).obj s = none) {vars : List (Name × Name)} {goal : Option Name} {b : Name} (hg : Builds vars goal b)
    (cs' : List Cmd) (hc : ∀ c ∈ cs', ¬ Touches s c) :
    (steps mk (cs ++ [.test] ++ cs' ++ [.make vars goal]) t).Has b s ⟨false, true, true, false⟩ := by
  rw [steps_append, steps_append, steps_append]
  have hs1 := steps_sane (mk := mk) cs h
  obtain ⟨t1, ht1⟩ : ∃ t1, t1 = steps mk cs t := ⟨_, rfl⟩
  rw [← ht1] at hs1 hnew ⊢
  obtain ⟨τ, h1, h2⟩ := test_leaves (mk := mk) hs1 hs hk hnew
  have hs2 := step_sane (mk := mk) hs1 .test
  obtain ⟨a, a'⟩ := steps_fresh (mk := mk) cs' hc hs2 h2
  show (step mk (steps mk cs' (step mk t1 .test)) (.make vars goal)).Has _ _ _
  rw [step_make hg]
  obtain ⟨B, h3, h4⟩ := (makeRun_facts (kept := mk.src) vars b (steps_sane cs' hs2)).old s (sources_objects (tested_sources hs)) (τ, testFlags) a
    (by rw [a', h1])
  exact ⟨B, τ, h3, h4⟩

/-- **C98.** With make 4.3, from a directory without objects: `make test` followed by a plain `make` gives a solver whose grid is compiled for one memory
layout and whose spherical transforms are compiled for the other (and with assertions). -/
theorem C98_layouts_mixed (h : t.Sane) (hc : t.Clean) :
    (steps make43 [.test, .make [] none] t).Has "default_fd.run".toList "sphere".toList ⟨false, true, true, false⟩ ∧
    (steps make43 [.test, .make [] none] t).Has "default_fd.run".toList "grid".toList ⟨true, false, false, false⟩ :=
  ⟨C98_tests_leak_into_solver (mk := make43) h [] (s := "sphere".toList) (by decide) (by decide) (hc _) (builds_default []) [] (by simp),
    C88_own_switches_partial (mk := make43) h hc [.test] (s := "grid".toList) (builds_default []) asks_plain (by decide) (by decide) (by decide)⟩

/-- **C98.** Conversely, with a make that keeps the object of a tested source in Source, the tests test the solver's object: that part of the test
program has the switches of the solver built first. -/
theorem C98_solver_leaks_into_tests (h : t.Sane) (cs : List Cmd) {s : Name} (hs : s ∈ tested) (hk : mk.src s = true)
    (hnew : (steps mk cs t).obj s = none) {vars : List (Name × Name)} {goal : Option Name} {b : Name} (hg : Builds vars goal b) {fl : Flags}
    (hf : AsksFor vars fl) (cs' : List Cmd) (hc : ∀ c ∈ cs', ¬ Touches s c) :
    (steps mk (cs ++ [.make vars goal] ++ cs' ++ [.test]) t).Has "test.run".toList s fl := by
  rw [steps_append, steps_append, steps_append]
  have hs1 := steps_sane (mk := mk) cs h
  obtain ⟨t1, ht1⟩ : ∃ t1, t1 = steps mk cs t := ⟨_, rfl⟩
  rw [← ht1] at hs1 hnew ⊢
  show (step mk (steps mk cs' (step mk t1 (.make vars goal))) .test).Has _ _ _
  rw [step_make hg, (asksFor_iff _ _).mp hf]
  have f := makeRun_facts (kept := mk.src) vars b hs1
  obtain ⟨τ, hτ, e⟩ := f.left s (sources_objects (tested_sources hs)) (stale_none hnew) (Or.inl hk)
  have h9 : stale headers (makeRun mk.src vars b t1) s = false := by
    refine stale_of e ?_ fun x _ => ?_
    · rw [f.cpp]
      exact Nat.le_trans (hs1.cpp s) (Nat.le_of_lt hτ)
    · rw [f.hpp]
      exact Nat.le_trans (hs1.hpp x) (Nat.le_of_lt hτ)
  obtain ⟨a, a'⟩ := steps_fresh (mk := mk) cs' hc f.sane h9
  obtain ⟨B, h1, h2⟩ := (makeTest_facts (kept := mk.test) (steps_sane cs' f.sane)).old s (tested_objects hs) (τ, flagsOf vars) (stale_nil a) (by rw [a', e])
  exact ⟨B, τ, h1, h2⟩

/-- Non-vacuity of C98: a tree without objects; make 4.3, which keeps two objects in Test, one in Source, and not that of the grid; a history. -/
example : ∃ t : Tree, t.Sane ∧ t.Clean ∧ "sphere".toList ∈ tested ∧ make43.test "sphere".toList = true ∧ "finite_diff".toList ∈ tested ∧
    make43.src "finite_diff".toList = true ∧ "grid".toList ∈ tested ∧ make43.src "grid".toList = false ∧ make43.test "grid".toList = false ∧
    (steps make43 [] t).obj "sphere".toList = none ∧ "sphere".toList ∈ includes ∧ Builds [] none "default_fd.run".toList ∧
    ∀ c ∈ [Cmd.make [] none, Cmd.test, Cmd.editCpp "main".toList], ¬ Touches "sphere".toList c := by
  obtain ⟨t, h1, h2⟩ := empty_tree
  refine ⟨t, h1, h2, by decide, by decide, by decide, by decide, by decide, by decide, by decide, h2 _, by decide, builds_default [], ?_⟩
  intro c hc
  simp only [List.mem_cons, List.not_mem_nil, or_false] at hc
  rcases hc with rfl | rfl | rfl
  · exact fun h => h
  · exact fun h => h
  · show ¬ "main".toList = "sphere".toList
    decide

end SFK
