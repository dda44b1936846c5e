import Verif.Spec.Build
import Verif.Lemmas.Base
import Mathlib.Data.Nat.Basic
import Mathlib.Tactic.ByContra
/-
C88: which switches the binaries are built with.
-/
namespace SFK
open Build
variable {mk : Make} {kept : Name → Bool} {t : Tree} {deps objs : List Name}

namespace Build

theorem compile_static (fl : Flags) (t : Tree) (s : Name) : (compile deps fl t s).cpp = t.cpp ∧ (compile deps fl t s).hpp = t.hpp ∧
    (compile deps fl t s).bin = t.bin ∧ t.now ≤ (compile deps fl t s).now := by
  unfold compile
  split
  · exact ⟨rfl, rfl, rfl, Nat.le_succ _⟩
  · exact ⟨rfl, rfl, rfl, le_refl _⟩

theorem compile_sane (fl : Flags) {t : Tree} (h : t.Sane) (s : Name) : (compile deps fl t s).Sane := by
  unfold compile
  split
  · refine ⟨fun q => Nat.le_trans (h.cpp q) (Nat.le_succ _), fun q => Nat.le_trans (h.hpp q) (Nat.le_succ _), fun q o ho => ?_⟩
    dsimp only at ho ⊢
    split at ho
    · injection ho with ho
      rw [← ho]
    · exact Nat.le_trans (h.obj q o ho) (Nat.le_succ _)
  · exact h

theorem compile_other (fl : Flags) (t : Tree) {s q : Name} (h : q ≠ s) : (compile deps fl t s).obj q = t.obj q := by
  unfold compile
  split
  · dsimp only
    rw [if_neg h]
  · rfl

theorem stale_congr {t t' : Tree} {s : Name} (h1 : t'.obj s = t.obj s) (h2 : t'.cpp = t.cpp) (h3 : t'.hpp = t.hpp) : stale deps t' s = stale deps t s := by
  unfold stale
  rw [h1, h2, h3]

theorem compile_self (fl : Flags) {t : Tree} (h : t.Sane) (s : Name) :
    stale deps (compile deps fl t s) s = false ∧ (stale deps t s = true → ∃ τ, t.now < τ ∧ (compile deps fl t s).obj s = some (τ, fl)) ∧
      (stale deps t s = false → (compile deps fl t s).obj s = t.obj s) := by
  cases hs : stale deps t s with
  | false =>
    have : compile deps fl t s = t := by
      unfold compile
      rw [hs]
      rfl
    rw [this]
    exact ⟨hs, fun h => (by cases h), fun _ => rfl⟩
  | true =>
    have e : (compile deps fl t s).obj s = some (t.now + 1, fl) := by
      unfold compile
      rw [hs, if_pos rfl]
      dsimp only
      rw [if_pos rfl]
    refine ⟨?_, fun _ => ⟨_, Nat.lt_succ_self _, e⟩, fun h => by cases h⟩
    unfold stale
    rw [e]
    obtain ⟨h1, h2, -, -⟩ := compile_static (deps := deps) fl t s
    rw [h1, h2]
    simp only [Bool.or_eq_false_iff, decide_eq_false_iff_not, not_lt, List.any_eq_false, decide_eq_true_eq]
    exact ⟨Nat.le_trans (h.cpp s) (Nat.le_succ _), fun q _ => Nat.le_trans (h.hpp q) (Nat.le_succ _)⟩

/-- Compiling a list of objects. -/
theorem compile_list (fl : Flags) (l : List Name) : ∀ {t : Tree}, t.Sane →
    (l.foldl (compile deps fl) t).Sane ∧ (l.foldl (compile deps fl) t).cpp = t.cpp ∧ (l.foldl (compile deps fl) t).hpp = t.hpp ∧
    (l.foldl (compile deps fl) t).bin = t.bin ∧
    ∀ s, (s ∉ l ∨ stale deps t s = false → (l.foldl (compile deps fl) t).obj s = t.obj s) ∧
      (s ∈ l → stale deps (l.foldl (compile deps fl) t) s = false ∧ (stale deps t s = true → ∃ τ, t.now < τ ∧ (l.foldl (compile deps fl) t).obj s = some (τ, fl))) := by
  induction l with
  | nil => exact fun h => ⟨h, rfl, rfl, rfl, fun s => ⟨fun _ => rfl, fun h => by cases h⟩⟩
  | cons a l ih =>
    intro t h
    obtain ⟨h1, h2, h3, h4, h5⟩ := ih (compile_sane (deps := deps) fl h a)
    obtain ⟨c1, c2, c3, c4⟩ := compile_static (deps := deps) fl t a
    rw [List.foldl_cons]
    refine ⟨h1, h2.trans c1, h3.trans c2, h4.trans c3, fun s => ⟨?_, ?_⟩⟩
    · intro hs
      by_cases e : s = a
      · subst e
        have hs' : stale deps t s = false := by
          rcases hs with hs | hs
          · exact absurd (List.mem_cons_self) hs
          · exact hs
        rw [(h5 s).1 (Or.inr (compile_self (deps := deps) fl h s).1), (compile_self (deps := deps) fl h s).2.2 hs']
      · rw [(h5 s).1, compile_other (deps := deps) fl t e]
        rcases hs with hs | hs
        · exact Or.inl fun hm => hs (List.mem_cons_of_mem _ hm)
        · right
          rw [stale_congr (compile_other (deps := deps) fl t e) c1 c2, hs]
    · intro hs
      by_cases e : s = a
      · subst e
        have hc := compile_self (deps := deps) fl h s
        have ho := (h5 s).1 (Or.inr hc.1)
        refine ⟨?_, fun hst => ?_⟩
        · rw [stale_congr ho h2 h3, hc.1]
        · rw [ho]
          exact hc.2.1 hst
      · have hm : s ∈ l := by
          rcases List.mem_cons.mp hs with hs | hs
          · exact absurd hs e
          · exact hs
        refine ⟨((h5 s).2 hm).1, fun hst => ?_⟩
        obtain ⟨τ, h6, h7⟩ := ((h5 s).2 hm).2 (by rw [stale_congr (compile_other (deps := deps) fl t e) c1 c2, hst])
        exact ⟨τ, Nat.lt_of_le_of_lt c4 h6, h7⟩

/-- Compiling, linking, tidying up: `makeRun` and `makeTest`. -/
def build (kept : Name → Bool) (deps objs : List Name) (fl : Flags) (goal : Name) (t : Tree) : Tree :=
  tidy kept t (link objs goal (objs.foldl (compile deps fl) t))

theorem makeRun_build (kept : Name → Bool) (vars : List (Name × Name)) (goal : Name) (t : Tree) :
    makeRun kept vars goal t = build kept headers objects (flagsOf vars) goal t := rfl

theorem makeTest_build (kept : Name → Bool) (t : Tree) : makeTest kept t = build kept [] testObjects testFlags "test.run".toList t := rfl

theorem stale_some {s : Name} (hs : stale deps t s = false) : ∃ o, t.obj s = some o ∧ t.cpp s ≤ o.1 ∧ ∀ h ∈ deps, t.hpp h ≤ o.1 := by
  unfold stale at hs
  split at hs
  · cases hs
  · rename_i o ho
    simp only [Bool.or_eq_false_iff, decide_eq_false_iff_not, not_lt, List.any_eq_false, decide_eq_true_eq] at hs
    exact ⟨o, ho, hs.1, hs.2⟩

theorem stale_of {s : Name} {o : Nat × Flags} (ho : t.obj s = some o) (h1 : t.cpp s ≤ o.1) (h2 : ∀ h ∈ deps, t.hpp h ≤ o.1) :
    stale deps t s = false := by
  unfold stale
  rw [ho]
  simp only [Bool.or_eq_false_iff, decide_eq_false_iff_not, not_lt, List.any_eq_false, decide_eq_true_eq]
  exact ⟨h1, h2⟩

/-- What a build does. -/
structure Facts (kept : Name → Bool) (deps objs : List Name) (fl : Flags) (goal : Name) (t t' : Tree) : Prop where
  sane : t'.Sane
  cpp : t'.cpp = t.cpp
  hpp : t'.hpp = t.hpp
  other : ∀ g, g ≠ goal → t'.bin g = t.bin g
  own : ∀ s ∈ objs, stale deps t s = true → ∃ b τ, t'.bin goal = some b ∧ b s = some (τ, fl) ∧ t.now < τ
  old : ∀ s ∈ objs, ∀ o, stale deps t s = false → t.obj s = some o → ∃ b, t'.bin goal = some b ∧ b s = some o
  gone : ∀ s, t.obj s = none → kept s = false → t'.obj s = none
  same : ∀ s, stale deps t s = false → t'.obj s = t.obj s
  left : ∀ s ∈ objs, stale deps t s = true → (kept s = true ∨ (t.obj s).isSome) → ∃ τ, t.now < τ ∧ t'.obj s = some (τ, fl)
  none : ∀ s, s ∉ objs → t'.obj s = t.obj s

theorem build_facts (fl : Flags) (goal : Name) (h : t.Sane) : Facts kept deps objs fl goal t (build kept deps objs fl goal t) := by
  obtain ⟨h1, h2, h3, h4, h5⟩ := compile_list (deps := deps) fl objs h
  unfold build
  obtain ⟨t', ht'⟩ : ∃ t', t' = objs.foldl (compile deps fl) t := ⟨_, rfl⟩
  rw [← ht'] at h1 h2 h3 h4 h5 ⊢
  have hobj : ∀ s, (tidy kept t (link objs goal t')).obj s = if (t.obj s).isNone && !kept s then none else t'.obj s := fun _ => rfl
  have hbin : ∀ s ∈ objs, ∃ b, (tidy kept t (link objs goal t')).bin goal = some b ∧ b s = t'.obj s := by
    intro s hs
    refine ⟨fun s => if s ∈ objs then t'.obj s else none, ?_, if_pos hs⟩
    show (if goal = goal then _ else _) = _
    rw [if_pos rfl]
  refine {
    sane := ⟨fun s => Nat.le_trans (h1.cpp s) (Nat.le_succ _), fun s => Nat.le_trans (h1.hpp s) (Nat.le_succ _), fun s o ho => ?_⟩
    cpp := h2
    hpp := h3
    other := ?_
    own := ?_
    old := ?_
    gone := ?_
    same := ?_
    left := ?_
    none := ?_ }
  · rw [hobj] at ho
    split at ho
    · cases ho
    · exact Nat.le_trans (h1.obj s o ho) (Nat.le_succ _)
  · intro g hg
    show (if g = goal then _ else t'.bin g) = _
    rw [if_neg hg, h4]
  · intro s hs hst
    obtain ⟨τ, l, e⟩ := ((h5 s).2 hs).2 hst
    obtain ⟨b, hb, hb'⟩ := hbin s hs
    exact ⟨b, τ, hb, hb'.trans e, l⟩
  · intro s hs o hst ho
    obtain ⟨b, hb, hb'⟩ := hbin s hs
    exact ⟨b, hb, by rw [hb', (h5 s).1 (Or.inr hst), ho]⟩
  · intro s hs hk
    rw [hobj, hs, hk]
    rfl
  · intro s hs
    obtain ⟨o, ho, -⟩ := stale_some hs
    rw [hobj, ho]
    simp only [Option.isNone_some, Bool.false_and, Bool.false_eq_true, if_false]
    rw [(h5 s).1 (Or.inr hs), ho]
  · intro s hs hst hk
    have e : (tidy kept t (link objs goal t')).obj s = t'.obj s := by
      rw [hobj, if_neg]
      rcases hk with hk | hk
      · rw [hk]; simp
      · cases ho : t.obj s with
        | none => rw [ho] at hk; cases hk
        | some o => simp
    rw [e]
    exact ((h5 s).2 hs).2 hst
  · intro s hs
    rw [hobj, (h5 s).1 (Or.inl hs)]
    cases ho : t.obj s with
    | none => split <;> rfl
    | some o => simp

theorem makeRun_facts (vars : List (Name × Name)) (goal : Name) (h : t.Sane) :
    Facts kept headers objects (flagsOf vars) goal t (makeRun kept vars goal t) := build_facts _ _ h

theorem makeTest_facts (h : t.Sane) : Facts kept [] testObjects testFlags "test.run".toList t (makeTest kept t) := build_facts _ _ h

theorem step_make_cases (t : Tree) (vars : List (Name × Name)) (goal : Option Name) :
    (∃ g, step mk t (.make vars goal) = makeRun mk.src vars g t) ∨ step mk t (.make vars goal) = t := by
  cases goal with
  | none => exact Or.inl ⟨_, rfl⟩
  | some g =>
    unfold step
    dsimp only
    split
    · exact Or.inl ⟨_, rfl⟩
    · exact Or.inr rfl

theorem step_sane (h : t.Sane) (c : Cmd) : (step mk t c).Sane := by
  cases c with
  | editCpp s =>
    refine ⟨fun q => ?_, fun q => Nat.le_trans (h.hpp q) (Nat.le_succ _), fun q o ho => Nat.le_trans (h.obj q o ho) (Nat.le_succ _)⟩
    unfold step
    dsimp only
    split
    · exact Nat.le_refl _
    · exact Nat.le_trans (h.cpp q) (Nat.le_succ _)
  | editHpp s =>
    refine ⟨fun q => Nat.le_trans (h.cpp q) (Nat.le_succ _), fun q => ?_, fun q o ho => Nat.le_trans (h.obj q o ho) (Nat.le_succ _)⟩
    unfold step
    dsimp only
    split
    · exact Nat.le_refl _
    · exact Nat.le_trans (h.hpp q) (Nat.le_succ _)
  | make vars goal =>
    rcases step_make_cases (mk := mk) t vars goal with ⟨g, e⟩ | e
    · rw [e]
      exact (makeRun_facts vars g h).sane
    · rw [e]
      exact h
  | test => exact (makeTest_facts h).sane
  | cleanSource => exact ⟨h.cpp, h.hpp, fun q o ho => by cases ho⟩
  | clean => exact ⟨h.cpp, h.hpp, fun q o ho => by cases ho⟩
  | cleanBin => exact ⟨h.cpp, h.hpp, h.obj⟩
  | cleanOutput => exact ⟨h.cpp, h.hpp, h.obj⟩
  | run d => exact ⟨h.cpp, h.hpp, h.obj⟩

theorem steps_sane (cs : List Cmd) : ∀ {t : Tree}, t.Sane → (steps mk cs t).Sane := by
  induction cs with
  | nil => exact fun h => h
  | cons c cs ih => exact fun h => ih (step_sane h c)

theorem steps_append (a b : List Cmd) (t : Tree) : steps mk (a ++ b) t = steps mk b (steps mk a t) := by
  unfold steps
  rw [List.foldl_append]

theorem sources_objects {s : Name} (h : s ∈ sources) : s ∈ objects := by
  have : ∀ s ∈ sources, s ∈ objects := by decide
  exact this s h

theorem tested_objects {s : Name} (h : s ∈ tested) : s ∈ testObjects := by
  have : ∀ s ∈ tested, s ∈ testObjects := by decide
  exact this s h

theorem headers_includes {x : Name} : x ∈ headers ↔ x ∈ includes := by
  have a : ∀ x ∈ includes, x ∈ headers := by decide
  have b : ∀ x ∈ headers, x ∈ includes := by decide
  exact ⟨b x, a x⟩

/-- objects that are not kept are never there between commands -/
theorem step_none {s : Name} (h : t.Sane) (hk : mk.src s = false) (hk' : mk.test s = false) (hn : t.obj s = none) (c : Cmd) :
    (step mk t c).obj s = none := by
  cases c with
  | editCpp q => exact hn
  | editHpp q => exact hn
  | make vars goal =>
    rcases step_make_cases (mk := mk) t vars goal with ⟨g, e⟩ | e
    · rw [e]
      exact (makeRun_facts vars g h).gone s hn hk
    · rw [e]
      exact hn
  | test => exact (makeTest_facts h).gone s hn hk'
  | cleanSource => rfl
  | clean => rfl
  | cleanBin => exact hn
  | cleanOutput => exact hn
  | run d => exact hn

theorem steps_none {s : Name} (hk : mk.src s = false) (hk' : mk.test s = false) (cs : List Cmd) : ∀ {t : Tree}, t.Sane → t.obj s = none →
    (steps mk cs t).obj s = none := by
  induction cs with
  | nil => exact fun _ h => h
  | cons c cs ih => exact fun h hn => ih (step_sane h c) (step_none h hk hk' hn c)

theorem stale_none {s : Name} (h : t.obj s = none) : stale deps t s = true := by
  unfold stale
  rw [h]

theorem stale_nil {s : Name} (h : stale deps t s = false) : stale [] t s = false := by
  obtain ⟨o, h1, h2, -⟩ := stale_some h
  exact stale_of h1 h2 (by simp)

/-- an up-to-date object stays as it is as long as nothing it depends on is touched -/
theorem step_fresh {s : Name} (h : t.Sane) (hs : stale headers t s = false) {c : Cmd} (hc : ¬ Touches s c) :
    stale headers (step mk t c) s = false ∧ (step mk t c).obj s = t.obj s := by
  obtain ⟨o, ho, h1, h2⟩ := stale_some hs
  cases c with
  | editCpp q =>
    have hq : s ≠ q := fun e => hc e.symm
    have e : (step mk t (.editCpp q)).cpp s = t.cpp s := if_neg hq
    refine ⟨stale_of (o := o) ho (by rw [e]; exact h1) h2, rfl⟩
  | editHpp q =>
    have hq : q ∉ headers := fun e => hc (headers_includes.mp e)
    refine ⟨stale_of (o := o) ho h1 fun x hx => ?_, rfl⟩
    have e : (step mk t (.editHpp q)).hpp x = t.hpp x := if_neg fun e : x = q => hq (e ▸ hx)
    rw [e]
    exact h2 x hx
  | make vars goal =>
    rcases step_make_cases (mk := mk) t vars goal with ⟨g, e⟩ | e
    · have f := makeRun_facts (kept := mk.src) vars g h
      rw [e]
      exact ⟨by rw [stale_congr (f.same s hs) f.cpp f.hpp, hs], f.same s hs⟩
    · rw [e]
      exact ⟨hs, rfl⟩
  | test =>
    have f := makeTest_facts (kept := mk.test) h
    have e := f.same s (stale_nil hs)
    exact ⟨by rw [show step mk t .test = makeTest mk.test t from rfl, stale_congr e f.cpp f.hpp, hs], e⟩
  | cleanSource => exact absurd trivial hc
  | clean => exact absurd trivial hc
  | cleanBin => exact ⟨stale_of (o := o) ho h1 h2, rfl⟩
  | cleanOutput => exact ⟨stale_of (o := o) ho h1 h2, rfl⟩
  | run d => exact ⟨stale_of (o := o) ho h1 h2, rfl⟩

theorem steps_fresh {s : Name} (cs : List Cmd) (hc : ∀ c ∈ cs, ¬ Touches s c) : ∀ {t : Tree}, t.Sane → stale headers t s = false →
    stale headers (steps mk cs t) s = false ∧ (steps mk cs t).obj s = t.obj s := by
  induction cs with
  | nil => exact fun _ h => ⟨h, rfl⟩
  | cons c cs ih =>
    intro t h hs
    obtain ⟨a, b⟩ := step_fresh (mk := mk) h hs (hc c List.mem_cons_self)
    obtain ⟨a', b'⟩ := ih (fun c hm => hc c (List.mem_cons_of_mem _ hm)) (step_sane h c) a
    exact ⟨a', b'.trans b⟩

/-- a stale object stays stale until the next build -/
theorem step_stale {s : Name} (h : t.Sane) (hs : stale headers t s = true) {c : Cmd} (hc : ¬ Makes c) : stale headers (step mk t c) s = true := by
  by_contra hn
  obtain ⟨o, ho, h1, h2⟩ := stale_some (Bool.eq_false_iff.mpr hn)
  have ho' : t.obj s = some o := by
    cases c with
    | editCpp q => exact ho
    | editHpp q => exact ho
    | make v g => exact absurd (Or.inr ⟨v, g, rfl⟩) hc
    | test => exact absurd (Or.inl rfl) hc
    | cleanSource => cases ho
    | clean => cases ho
    | cleanBin => exact ho
    | cleanOutput => exact ho
    | run d => exact ho
  have hb := h.obj s o ho'
  have : stale headers t s = false := by
    cases c with
    | editCpp q =>
      refine stale_of ho' ?_ h2
      have h1 : (if s = q then t.now + 1 else t.cpp s) ≤ o.1 := h1
      split at h1
      · omega
      · exact h1
    | editHpp q =>
      refine stale_of ho' h1 fun x hx => ?_
      have h2 : (if x = q then t.now + 1 else t.hpp x) ≤ o.1 := h2 x hx
      split at h2
      · omega
      · exact h2
    | make v g => exact absurd (Or.inr ⟨v, g, rfl⟩) hc
    | test => exact absurd (Or.inl rfl) hc
    | cleanSource => cases ho
    | clean => cases ho
    | cleanBin => exact stale_of ho' h1 h2
    | cleanOutput => exact stale_of ho' h1 h2
    | run d => exact stale_of ho' h1 h2
  rw [this] at hs
  cases hs

theorem steps_stale {s : Name} (cs : List Cmd) (hc : ∀ c ∈ cs, ¬ Makes c) : ∀ {t : Tree}, t.Sane → stale headers t s = true →
    stale headers (steps mk cs t) s = true := by
  induction cs with
  | nil => exact fun _ h => h
  | cons c cs ih => exact fun h hs => ih (fun c hm => hc c (List.mem_cons_of_mem _ hm)) (step_sane h c) (step_stale h hs (hc c List.mem_cons_self))

/-! The meaning of the command line. -/

theorem find_last (p : Name × Name → Bool) : ∀ (l : List (Name × Name)) (v : Name × Name), l.reverse.find? p = some v ↔
    p v = true ∧ ∃ a b, l = a ++ v :: b ∧ ∀ w ∈ b, p w = false := by
  intro l v
  rw [List.find?_eq_some_iff_append]
  constructor
  · rintro ⟨h1, a, b, h2, h3⟩
    refine ⟨h1, b.reverse, a.reverse, ?_, fun w hw => ?_⟩
    · have := congrArg List.reverse h2
      rw [List.reverse_reverse, List.reverse_append, List.reverse_cons] at this
      rw [this, List.append_assoc]
      rfl
    · have := h3 w (List.mem_reverse.mp hw)
      simpa using this
  · rintro ⟨h1, a, b, h2, h3⟩
    refine ⟨h1, b.reverse, a.reverse, ?_, fun w hw => ?_⟩
    · rw [h2, List.reverse_append, List.reverse_cons, List.append_assoc]
      rfl
    · have := h3 w (List.mem_reverse.mp hw)
      rw [this]
      rfl

theorem isTrue_iff (vars : List (Name × Name)) (name : String) : isTrue vars name = true ↔ SetTrue vars name := by
  unfold isTrue SetTrue
  constructor
  · intro h
    split at h
    · rename_i v hv
      obtain ⟨h1, a, b, h2, h3⟩ := (find_last _ _ _).mp hv
      have e : v = (name.toList, "true".toList) := Prod.ext (by simpa using h1) (by simpa using h)
      refine ⟨a, b, e ▸ h2, fun w hw => ?_⟩
      have := h3 w hw
      simpa using this
    · cases h
  · rintro ⟨a, b, h2, h3⟩
    have : vars.reverse.find? (fun v => v.1 == name.toList) = some (name.toList, "true".toList) := by
      refine (find_last _ _ _).mpr ⟨by simp, a, b, h2, fun w hw => ?_⟩
      have := h3 w hw
      simpa using this
    rw [this]
    simp

theorem asksFor_iff (vars : List (Name × Name)) (fl : Flags) : AsksFor vars fl ↔ fl = flagsOf vars := by
  constructor
  · intro h
    have e1 : fl.ndebug = !isTrue vars "debug" := by
      rw [Bool.eq_iff_iff, h.ndebug, ← isTrue_iff]
      simp
    have e2 : fl.useCheb = isTrue vars "use_cheb" := by rw [Bool.eq_iff_iff, h.useCheb, isTrue_iff]
    have e3 : fl.contig = (isTrue vars "use_contiguous_longitudes" || isTrue vars "use_hyperboloidal") := by
      rw [Bool.eq_iff_iff, h.contig, ← isTrue_iff, ← isTrue_iff, Bool.or_eq_true]
    have e4 : fl.profile = isTrue vars "profile" := by rw [Bool.eq_iff_iff, h.profile, isTrue_iff]
    cases fl
    simp only at e1 e2 e3 e4
    rw [e1, e2, e3, e4]
    rfl
  · rintro rfl
    refine ⟨?_, isTrue_iff _ _, ?_, isTrue_iff _ _⟩
    · rw [← isTrue_iff]
      show (!isTrue vars "debug") = true ↔ _
      simp
    · rw [← isTrue_iff, ← isTrue_iff, ← Bool.or_eq_true]
      rfl

theorem step_make {vars : List (Name × Name)} {goal : Option Name} {b : Name} (hg : Builds vars goal b) :
    step mk t (.make vars goal) = makeRun mk.src vars b t := by
  rcases hg with ⟨rfl, hg⟩ | ⟨rfl, hg⟩
  · unfold step
    dsimp only
    rw [if_pos]
    exact List.isSuffixOf_iff_suffix.mpr hg
  · show makeRun mk.src vars (defaultGoal vars) t = _
    congr 1
    unfold defaultGoal
    rcases hg with ⟨h, rfl⟩ | ⟨h, rfl⟩
    · rw [if_pos ((isTrue_iff _ _).mpr h)]
    · rw [if_neg fun e => h ((isTrue_iff _ _).mp e)]

end Build

/-- **C88.** With a make that removes the objects it made for a binary: whatever was edited, built or cleaned before, a binary's parts are compiled
with the switches of the command that built it. -/
theorem C88_own_switches_partial (h : t.Sane) (hc : t.Clean) (cs : List Cmd) {vars : List (Name × Name)} {goal : Option Name} {b : Name}
    (hg : Builds vars goal b) {fl : Flags} (hf : AsksFor vars fl) {s : Name} (hs : s ∈ sources) (hk : mk.src s = false) (hk' : mk.test s = false) :
    (steps mk (cs ++ [.make vars goal]) t).Has b s fl := by
  rw [steps_append]
  show (step mk (steps mk cs t) (.make vars goal)).Has _ _ _
  rw [step_make hg, (asksFor_iff _ _).mp hf]
  obtain ⟨B, τ, h1, h2, -⟩ := (makeRun_facts (kept := mk.src) vars b (steps_sane cs h)).own s (sources_objects hs)
    (stale_none (steps_none hk hk' cs h (hc s)))
  exact ⟨B, τ, h1, h2⟩

/-- **C88.** After a build, every part of the binary was compiled after the last change of its source and of all the headers, whatever make keeps and
whatever happened before. -/
theorem C88_up_to_date (h : t.Sane) (cs : List Cmd) {vars : List (Name × Name)} {goal : Option Name} {b : Name} (hg : Builds vars goal b)
    {s : Name} (hs : s ∈ sources) : (steps mk (cs ++ [.make vars goal]) t).Current b s := by
  rw [steps_append]
  have hs1 := steps_sane (mk := mk) cs h
  obtain ⟨t1, ht1⟩ : ∃ t1, t1 = steps mk cs t := ⟨_, rfl⟩
  rw [← ht1] at hs1 ⊢
  show (step mk t1 (.make vars goal)).Current _ _
  rw [step_make hg]
  have f := makeRun_facts (kept := mk.src) vars b hs1
  cases hst : stale headers t1 s with
  | true =>
    obtain ⟨B, τ, h1, h2, h3⟩ := f.own s (sources_objects hs) hst
    refine ⟨B, τ, _, h1, h2, ?_, fun x _ => ?_⟩
    · rw [f.cpp]
      exact Nat.le_trans (hs1.cpp s) (Nat.le_of_lt h3)
    · rw [f.hpp]
      exact Nat.le_trans (hs1.hpp x) (Nat.le_of_lt h3)
  | false =>
    obtain ⟨o, ho, h1, h2⟩ := stale_some hst
    obtain ⟨B, h3, h4⟩ := f.old s (sources_objects hs) o hst ho
    refine ⟨B, o.1, o.2, h3, h4, ?_, fun x hx => ?_⟩
    · rw [f.cpp]
      exact h1
    · rw [f.hpp]
      exact h2 x (headers_includes.mpr hx)

/-- **C88.** A source that was edited, or one of whose headers was, is compiled with the switches of the next build, whatever make keeps and whatever
happened before. -/
theorem C88_edits_rebuilt (h : t.Sane) (cs : List Cmd) {s : Name} (hs : s ∈ sources) {e : Cmd} (he : Edits s e) (cs' : List Cmd)
    (hc : ∀ c ∈ cs', ¬ Makes c) {vars : List (Name × Name)} {goal : Option Name} {b : Name} (hg : Builds vars goal b) {fl : Flags}
    (hf : AsksFor vars fl) : (steps mk (cs ++ [e] ++ cs' ++ [.make vars goal]) t).Has b s fl := by
  rw [steps_append, steps_append, steps_append]
  have h1 := steps_sane (mk := mk) cs h
  obtain ⟨t1, ht1⟩ : ∃ t1, t1 = steps mk cs t := ⟨_, rfl⟩
  rw [← ht1] at h1 ⊢
  show (step mk (steps mk cs' (step mk t1 e)) (.make vars goal)).Has _ _ _
  rw [step_make hg, (asksFor_iff _ _).mp hf]
  have h2 := step_sane (mk := mk) h1 e
  have hst : stale headers (step mk t1 e) s = true := by
    by_contra hn
    obtain ⟨o, ho, h3, h4⟩ := stale_some (Bool.eq_false_iff.mpr hn)
    rcases he with rfl | ⟨x, hx, rfl⟩
    · have hb := h1.obj s o ho
      have h3 : (if s = s then t1.now + 1 else t1.cpp s) ≤ o.1 := h3
      rw [if_pos rfl] at h3
      omega
    · have hb := h1.obj s o ho
      have h4 : (if x = x then t1.now + 1 else t1.hpp x) ≤ o.1 := h4 x (headers_includes.mpr hx)
      rw [if_pos rfl] at h4
      omega
  obtain ⟨B, τ, h3, h4, -⟩ := (makeRun_facts (kept := mk.src) vars b (steps_sane cs' h2)).own s (sources_objects hs) (steps_stale cs' hc h2 hst)
  exact ⟨B, τ, h3, h4⟩

/-- **C88.** With a make that keeps them, a binary's part made from a source is compiled with the switches of the first build after the source or a
header last changed, whatever switches and goals later commands ask for. -/
theorem C88_first_build_decides (h : t.Sane) (cs : List Cmd) {s : Name} (hs : s ∈ sources) (hk : mk.src s = true)
    (hnew : (steps mk cs t).obj s = none) {vars vars' : List (Name × Name)} {goal goal' : Option Name} {b b' : Name}
    (hg : Builds vars goal b) (hg' : Builds vars' goal' b') {fl : Flags} (hf : AsksFor vars fl)
    (cs' : List Cmd) (hc : ∀ c ∈ cs', ¬ Touches s c) :
    (steps mk (cs ++ [.make vars goal] ++ cs' ++ [.make vars' goal']) t).Has b' s fl := by
  rw [steps_append, steps_append, steps_append]
  obtain ⟨t1, ht1⟩ : ∃ t1, t1 = steps mk cs t := ⟨_, rfl⟩
  have hs1 : t1.Sane := ht1 ▸ steps_sane cs h
  rw [← ht1] at hnew ⊢
  show (step mk (steps mk cs' (step mk t1 (.make vars goal))) (.make vars' goal')).Has _ _ _
  rw [step_make hg, step_make hg', (asksFor_iff _ _).mp hf]
  have f := makeRun_facts (kept := mk.src) vars b hs1
  obtain ⟨τ, hτ, e⟩ := f.left s (sources_objects hs) (stale_none hnew) (Or.inl hk)
  have h9 : stale headers (makeRun mk.src vars b t1) s = false := by
    refine stale_of e ?_ fun x _ => ?_
    · rw [f.cpp]
      exact Nat.le_trans (hs1.cpp s) (Nat.le_of_lt hτ)
    · rw [f.hpp]
      exact Nat.le_trans (hs1.hpp x) (Nat.le_of_lt hτ)
  obtain ⟨a, a'⟩ := steps_fresh (mk := mk) cs' hc f.sane h9
  obtain ⟨B, h1, h2⟩ := (makeRun_facts (kept := mk.src) vars' b' (steps_sane cs' f.sane)).old s (sources_objects hs) (τ, flagsOf vars) a (by rw [a', e])
  exact ⟨B, τ, h1, h2⟩

theorem config_flags (debug profile : Name) :
    flagsOf [("debug".toList, debug), ("profile".toList, profile), ("use_cheb".toList, "true".toList), ("use_contiguous_longitudes".toList,
      "true".toList)] = configFlags debug profile true ∧
    flagsOf [("debug".toList, debug), ("profile".toList, profile), ("use_contiguous_longitudes".toList, "true".toList)]
      = configFlags debug profile false := by
  constructor <;> rfl

theorem builds_default (vars : List (Name × Name)) : Builds vars none (defaultGoal vars) := by
  refine Or.inr ⟨rfl, ?_⟩
  unfold defaultGoal
  by_cases h : SetTrue vars "use_cheb"
  · exact Or.inl ⟨h, if_pos ((isTrue_iff _ _).mpr h)⟩
  · exact Or.inr ⟨h, if_neg fun e => h ((isTrue_iff _ _).mp e)⟩

theorem asks_plain : AsksFor [] plainFlags := (asksFor_iff _ _).mpr rfl

/-- **C88.** config.py in a directory without objects, with a make that removes the objects it made: `default_cheb.run` is a Chebyshev build and
`default_fd.run` a finite-difference build, in all parts whose objects are not kept. -/
theorem C88_config_partial (h : t.Sane) (hc : t.Clean) (debug profile : Name) {s : Name} (hs : s ∈ sources) (hk : mk.src s = false)
    (hk' : mk.test s = false) :
    (steps mk (config debug profile) t).Has "default_cheb.run".toList s (configFlags debug profile true) ∧
    (steps mk (config debug profile) t).Has "default_fd.run".toList s (configFlags debug profile false) := by
  obtain ⟨c1, c2⟩ := config_flags debug profile
  constructor
  · obtain ⟨b, τ, hb, hb'⟩ := C88_own_switches_partial (mk := mk) h hc [] (builds_default [("debug".toList, debug), ("profile".toList, profile),
      ("use_cheb".toList, "true".toList), ("use_contiguous_longitudes".toList, "true".toList)]) ((asksFor_iff _ _).mpr c1.symm) hs hk hk'
    refine ⟨b, τ, ?_, hb'⟩
    rw [← hb]
    have f := makeRun_facts (kept := mk.src) [("debug".toList, debug), ("profile".toList, profile), ("use_contiguous_longitudes".toList,
      "true".toList)] "default_fd.run".toList (steps_sane (mk := mk) [.make [("debug".toList, debug), ("profile".toList, profile),
      ("use_cheb".toList, "true".toList), ("use_contiguous_longitudes".toList, "true".toList)] none] h)
    exact f.other "default_cheb.run".toList (by decide)
  · exact C88_own_switches_partial (mk := mk) h hc ((config debug profile).take 1) (builds_default [("debug".toList, debug), ("profile".toList, profile),
      ("use_contiguous_longitudes".toList, "true".toList)]) ((asksFor_iff _ _).mpr c2.symm) hs hk hk'

/-- **C88.** ... but with a make that keeps the objects, config.py's `default_fd.run` is the Chebyshev build. -/
theorem C88_config_stale (h : t.Sane) (hc : t.Clean) (hk : ∀ s ∈ sources, mk.src s = true) (debug profile : Name) {s : Name} (hs : s ∈ sources) :
    (steps mk (config debug profile) t).Has "default_fd.run".toList s (configFlags debug profile true) :=
  C88_first_build_decides (mk := mk) h [] hs (hk s hs) (hc s) (builds_default _) (builds_default [("debug".toList, debug), ("profile".toList, profile),
      ("use_contiguous_longitudes".toList, "true".toList)]) ((asksFor_iff _ _).mpr (config_flags debug profile).1.symm) [] (by simp)

/-- **C88.** Recompiling from a run script (`recompile=True`) in a directory without objects, with any make: `default_cheb.run` is replaced by a
finite-difference build, and Bin gets a binary `clean_objdefault_cheb.run` besides. -/
theorem C88_recompile_wrong (h : t.Sane) (hc : t.Clean) {s : Name} (hs : s ∈ sources) :
    (steps mk (recompile "default_cheb.run".toList) t).Has "default_cheb.run".toList s ⟨true, false, false, false⟩ ∧
    (steps mk (recompile "default_cheb.run".toList) t).Has "clean_objdefault_cheb.run".toList s ⟨true, false, false, false⟩ := by
  have g1 : Builds [] (some ("clean_obj".toList ++ "default_cheb.run".toList)) ("clean_obj".toList ++ "default_cheb.run".toList) :=
    Or.inl ⟨rfl, by decide⟩
  have g2 : Builds [] (some "default_cheb.run".toList) "default_cheb.run".toList := Or.inl ⟨rfl, by decide⟩
  have f := makeRun_facts (kept := mk.src) [] ("clean_obj".toList ++ "default_cheb.run".toList) h
  constructor
  · have e : steps mk (recompile "default_cheb.run".toList) t
        = makeRun mk.src [] "default_cheb.run".toList (makeRun mk.src [] ("clean_obj".toList ++ "default_cheb.run".toList) t) := rfl
    cases hk : mk.src s with
    | false =>
      rw [e]
      obtain ⟨b, τ, hb, hb', -⟩ := (makeRun_facts (kept := mk.src) [] "default_cheb.run".toList f.sane).own s (sources_objects hs)
        (stale_none (f.gone s (hc s) hk))
      exact ⟨b, τ, hb, hb'⟩
    | true => exact C88_first_build_decides (mk := mk) h [] hs hk (hc s) g1 g2 asks_plain [] (by simp)
  · obtain ⟨b, τ, hb, hb', -⟩ := f.own s (sources_objects hs) (stale_none (hc s))
    refine ⟨b, τ, ?_, hb'⟩
    have e : steps mk (recompile "default_cheb.run".toList) t
        = makeRun mk.src [] "default_cheb.run".toList (makeRun mk.src [] ("clean_obj".toList ++ "default_cheb.run".toList) t) := rfl
    rw [e, (makeRun_facts [] _ f.sane).other _ (by decide)]
    exact hb

/-- **C88.** With a make that keeps the objects: after config.py, editing main.cpp and building with finite differences links a main program compiled
for finite differences with a grid compiled for Chebyshev. -/
theorem C88_mixed_binary (h : t.Sane) (hc : t.Clean) (hk : ∀ s ∈ sources, mk.src s = true) :
    (steps mk (config [] [] ++ [.editCpp "main".toList, .make [] none]) t).Has "default_fd.run".toList "main".toList ⟨true, false, false, false⟩ ∧
    (steps mk (config [] [] ++ [.editCpp "main".toList, .make [] none]) t).Has "default_fd.run".toList "grid".toList ⟨true, true, true, false⟩ := by
  constructor
  · exact C88_edits_rebuilt (mk := mk) h (config [] []) (s := "main".toList) (by decide) (Or.inl rfl) [] (by simp) (builds_default []) asks_plain
  · have e := C88_first_build_decides (mk := mk) h [] (s := "grid".toList) (by decide) (hk _ (by decide)) (hc _) (builds_default [("debug".toList, []), ("profile".toList, []),
      ("use_cheb".toList, "true".toList), ("use_contiguous_longitudes".toList, "true".toList)]) (builds_default []) ((asksFor_iff _ _).mpr rfl)
      [.make [("debug".toList, []), ("profile".toList, []), ("use_contiguous_longitudes".toList, "true".toList)] none, .editCpp "main".toList] (by
        intro c hc
        simp only [List.mem_cons, List.not_mem_nil, or_false] at hc
        rcases hc with rfl | rfl
        · exact fun h => h
        · show ¬ "main".toList = "grid".toList
          decide)
    exact e

theorem empty_tree : ∃ t : Tree, t.Sane ∧ t.Clean :=
  ⟨⟨0, fun _ => 0, fun _ => 0, fun _ => none, fun _ => none, fun _ => false⟩, ⟨fun _ => le_refl _, fun _ => le_refl _, fun _ _ h => (by cases h)⟩, fun _ => rfl⟩

/-- Non-vacuity of C88: a tree without objects, the make 4.3 that keeps some objects, a make that keeps all, a command, a history. -/
example : ∃ t : Tree, t.Sane ∧ t.Clean ∧ (make43.src "finite_diff".toList = true ∧ make43.src "grid".toList = false ∧ make43.test "grid".toList = false) ∧
    (∃ mk : Make, ∀ s ∈ sources, mk.src s = true) ∧ "grid".toList ∈ sources ∧
    AsksFor [("debug".toList, "true".toList), ("use_cheb".toList, "true".toList), ("debug".toList, "false".toList)] ⟨true, true, false, false⟩ ∧
    Builds [("use_cheb".toList, "true".toList)] none "default_cheb.run".toList ∧ Builds [] (some "x.run".toList) "x.run".toList ∧
    Edits "grid".toList (.editHpp "sphere".toList) ∧ (∀ c ∈ [Cmd.cleanSource, Cmd.editCpp "main".toList], ¬ Makes c) ∧
    ∀ c ∈ [Cmd.make [] none, Cmd.test, Cmd.editCpp "main".toList], ¬ Touches "grid".toList c := by
  obtain ⟨t, h1, h2⟩ := empty_tree
  refine ⟨t, h1, h2, ⟨by decide, by decide, by decide⟩, ⟨⟨fun _ => true, fun _ => true⟩, fun _ _ => rfl⟩, by decide, (asksFor_iff _ _).mpr rfl,
    builds_default _, Or.inl ⟨rfl, by decide⟩, Or.inr ⟨_, by decide, rfl⟩, ?_, ?_⟩
  · intro c hc
    simp only [List.mem_cons, List.not_mem_nil, or_false] at hc
    rcases hc with rfl | rfl
    · rintro (h | ⟨_, _, h⟩) <;> cases h
    · rintro (h | ⟨_, _, h⟩) <;> cases h
  · intro c hc
    simp only [List.mem_cons, List.not_mem_nil, or_false] at hc
    rcases hc with rfl | rfl | rfl
    · exact fun h => h
    · exact fun h => h
    · show ¬ "main".toList = "grid".toList
      decide

end SFK
