import Verif.Spec.Lifetime
import Verif.Lemmas.Base
import Mathlib.Tactic.Tauto
import Mathlib.Tactic.SplitIfs
import Mathlib.Tactic.ByContra
import Mathlib.Data.List.Induction
import Mathlib.Order.Basic
/-
Invariant of the lifetime model.
-/
namespace SFK
namespace Life

theorem kindAfter_snoc (h : List Op) (o : Op) (i : Nat) : kindAfter (h ++ [o]) i = match o with
    | .new j k => if j = i then some k else kindAfter h i
    | .del j => if j = i then none else kindAfter h i
    | .use _ => kindAfter h i := by
  unfold kindAfter
  rw [List.foldl_append]
  cases o <;> rfl

theorem split_snoc {h a b : List Op} {o x : Op} (e : h ++ [o] = a ++ x :: b) :
    (b = [] ∧ a = h ∧ x = o) ∨ ∃ b', b = b' ++ [o] ∧ h = a ++ x :: b' := by
  rcases List.eq_nil_or_concat b with rfl | ⟨b', y, rfl⟩
  · left
    have := List.append_inj' e rfl
    simp only [List.cons.injEq, and_true] at this
    exact ⟨rfl, this.1.symm, this.2.symm⟩
  · right
    rw [List.concat_eq_append, ← List.cons_append, ← List.append_assoc] at e
    have := List.append_inj' e rfl
    simp only [List.cons.injEq, and_true] at this
    exact ⟨b', by rw [List.concat_eq_append, this.2], this.1⟩

theorem kindAfter_persist {a : List Op} {j : Nat} (hj : kindAfter a j ≠ none) : ∀ b : List Op, Op.del j ∉ b → kindAfter (a ++ b) j ≠ none := by
  intro b
  induction b using List.reverseRecOn with
  | nil => intro _; rw [List.append_nil]; exact hj
  | append_singleton b o ih =>
    intro hb
    have hb' : Op.del j ∉ b ∧ o ≠ .del j := by
      constructor
      · intro h; exact hb (List.mem_append_left _ h)
      · intro h; exact hb (by rw [h]; simp)
    rw [← List.append_assoc, kindAfter_snoc]
    have := ih hb'.1
    cases o with
    | new i k => dsimp only; split_ifs <;> simp_all
    | use i => exact this
    | del i =>
      dsimp only
      rw [if_neg]
      · exact this
      · rintro rfl; exact hb'.2 rfl

/-- the object `j` existed when some Chebyshev transform was destroyed, and still exists -/
def Poisoned (c : Cfg) (h : List Op) (j : Nat) : Prop :=
  ∃ a i b k, h = a ++ .del i :: b ∧ kindAfter a i = some k ∧ hasCheb c k ∧ j ≠ i ∧ kindAfter a j ≠ none ∧ .del j ∉ b

theorem Poisoned.exists {c : Cfg} {h : List Op} {j : Nat} (p : Poisoned c h j) : kindAfter h j ≠ none := by
  obtain ⟨a, i, b, k, rfl, _, _, hji, hj, hb⟩ := p
  exact kindAfter_persist hj _ (by
    intro h
    rcases List.mem_cons.mp h with h | h
    · injection h with h; exact hji h
    · exact hb h)

theorem poisoned_snoc (c : Cfg) (h : List Op) (o : Op) (j : Nat) : Poisoned c (h ++ [o]) j ↔
    (Poisoned c h j ∧ o ≠ .del j) ∨ (∃ i k, o = .del i ∧ kindAfter h i = some k ∧ hasCheb c k ∧ j ≠ i ∧ kindAfter h j ≠ none) := by
  constructor
  · rintro ⟨a, i, b, k, e, h1, h2, h3, h4, h5⟩
    rcases split_snoc e with ⟨rfl, rfl, hx⟩ | ⟨b', rfl, rfl⟩
    · exact .inr ⟨i, k, hx.symm, h1, h2, h3, h4⟩
    · exact .inl ⟨⟨a, i, b', k, rfl, h1, h2, h3, h4, fun h => h5 (List.mem_append_left _ h)⟩, fun h => h5 (by rw [h]; simp)⟩
  · rintro (⟨⟨a, i, b, k, rfl, h1, h2, h3, h4, h5⟩, ho⟩ | ⟨i, k, rfl, h1, h2, h3, h4⟩)
    · refine ⟨a, i, b ++ [o], k, by simp, h1, h2, h3, h4, ?_⟩
      rw [List.mem_append]
      rintro (h | h)
      · exact h5 h
      · exact ho (List.mem_singleton.mp h).symm
    · exact ⟨h, i, [], k, rfl, h1, h2, h3, h4, by simp⟩

theorem noForeign_snoc (c : Cfg) (h : List Op) (o : Op) : NoForeignCleanup c (h ++ [o]) ↔ NoForeignCleanup c h ∧
    (∀ j, o = .use j ∨ o = .del j → ¬ Poisoned c h j) ∧ (∀ i k, o = .del i → kindAfter h i = some k → hasCheb c k → k ≠ .grid) := by
  constructor
  · intro H
    have H' : NoForeignCleanup c h := by
      rintro a i b k rfl h1 h2
      obtain ⟨e1, e2⟩ := H a i (b ++ [o]) k (by simp) h1 h2
      refine ⟨e1, fun j h3 h4 => ?_⟩
      obtain ⟨f1, f2⟩ := e2 j h3 h4
      exact ⟨fun h => f1 (List.mem_append_left _ h), fun h => f2 (List.mem_append_left _ h)⟩
    refine ⟨H', ?_, ?_⟩
    · rintro j ho ⟨a, i, b, k, rfl, h1, h2, h3, h4, h5⟩
      obtain ⟨f1, f2⟩ := (H a i (b ++ [o]) k (by simp) h1 h2).2 j h3 h4
      rcases ho with rfl | rfl
      · exact f1 (by simp)
      · exact f2 (by simp)
    · rintro i k rfl h1 h2
      exact (H h i [] k rfl h1 h2).1
  · rintro ⟨H, H1, H2⟩ a i b k e h1 h2
    rcases split_snoc e with ⟨rfl, rfl, hx⟩ | ⟨b', rfl, rfl⟩
    · exact ⟨H2 i k hx.symm h1 h2, fun j _ _ => by simp⟩
    · obtain ⟨f1, f2⟩ := H a i b' k rfl h1 h2
      refine ⟨f1, fun j h3 h4 => ?_⟩
      obtain ⟨g1, g2⟩ := f2 j h3 h4
      have hp : Poisoned c (a ++ .del i :: b') j := ⟨a, i, b', k, rfl, h1, h2, h3, h4, g2⟩
      constructor
      · intro hm
        rcases List.mem_append.mp hm with hm | hm
        · exact g1 hm
        · exact H1 j (.inl (List.mem_singleton.mp hm).symm) hp
      · intro hm
        rcases List.mem_append.mp hm with hm | hm
        · exact g2 hm
        · exact H1 j (.inr (List.mem_singleton.mp hm).symm) hp

theorem legit_snoc {h : List Op} {o : Op} (H : Legit (h ++ [o])) : Legit h ∧ (match o with
    | .new i _ => kindAfter h i = none
    | .use i => kindAfter h i ≠ none
    | .del i => kindAfter h i ≠ none) := by
  obtain ⟨h1, h2, h3⟩ := H
  refine ⟨⟨?_, ?_, ?_⟩, ?_⟩
  · rintro a i k b rfl; exact h1 a i k (b ++ [o]) (by simp)
  · rintro a i b rfl; exact h2 a i (b ++ [o]) (by simp)
  · rintro a i b rfl; exact h3 a i (b ++ [o]) (by simp)
  · cases o with
    | new i k => exact h1 h i k [] rfl
    | use i => exact h2 h i [] rfl
    | del i => exact h3 h i [] rfl

theorem run_snoc (c : Cfg) (s : St) (h : List Op) (o : Op) : run c s (h ++ [o]) = (do let s ← run c s h; step c s o) := by
  induction h generalizing s with
  | nil =>
    show (step c s o >>= fun s => run c s []) = step c s o
    cases step c s o <;> rfl
  | cons x xs ih =>
    show (step c s x >>= fun s => run c s (xs ++ [o])) = ((step c s x >>= fun s => run c s xs) >>= fun s => step c s o)
    cases step c s x with
    | error e => rfl
    | ok s' => exact ih s'

/-! ### the library -/

theorem planMany_spec : ∀ (k : Nat) (s : Fftw), ∃ v, Fftw.planMany k s = (List.range' s.next k, ⟨s.next + k, v⟩) ∧
    ∀ p, p ∈ v ↔ p ∈ List.range' s.next k ∨ p ∈ s.valid
  | 0, s => ⟨s.valid, rfl, by simp⟩
  | k + 1, s => by
    obtain ⟨v, h1, h2⟩ := planMany_spec k ⟨s.next + 1, s.next :: s.valid⟩
    refine ⟨v, ?_, ?_⟩
    · show (let r := Fftw.planMany k ⟨s.next + 1, s.next :: s.valid⟩; (s.next :: r.1, r.2)) = _
      rw [h1]
      simp only [List.range'_succ, Nat.add_assoc, Nat.add_comm 1 k]
    · intro p
      rw [h2, List.range'_succ]
      simp only [List.mem_cons]
      tauto

theorem executeAll_ok {s : Fftw} : ∀ {ps : List Nat}, (∀ p ∈ ps, p ∈ s.valid) → s.executeAll ps = .ok ()
  | [], _ => rfl
  | p :: ps, h => by
    show (s.execute p >>= fun _ => s.executeAll ps) = _
    unfold Fftw.execute
    rw [if_pos (h p (by simp))]
    exact executeAll_ok fun q hq => h q (by simp [hq])

theorem executeAll_bad {s : Fftw} {ps : List Nat} (hne : ps ≠ []) (h : ∀ p ∈ ps, p ∉ s.valid) : s.executeAll ps = .error .ub := by
  cases ps with
  | nil => exact absurd rfl hne
  | cons p ps =>
    show (s.execute p >>= fun _ => s.executeAll ps) = _
    unfold Fftw.execute
    rw [if_neg (h p (by simp))]
    rfl

theorem destroyAll_ok : ∀ {ps : List Nat} {s : Fftw}, ps.Nodup → (∀ p ∈ ps, p ∈ s.valid) → ∃ v, Fftw.destroyAll ps s = .ok ⟨s.next, v⟩ ∧
    ∀ p, p ∈ v ↔ p ∈ s.valid ∧ p ∉ ps
  | [], s, _, _ => ⟨s.valid, rfl, by simp⟩
  | p :: ps, s, hn, h => by
    rw [List.nodup_cons] at hn
    obtain ⟨v, h1, h2⟩ := destroyAll_ok (ps := ps) (s := { s with valid := s.valid.filter (· != p) }) hn.2 (fun q hq => by
      simp only [List.mem_filter, bne_iff_ne]
      exact ⟨h q (by simp [hq]), by rintro rfl; exact hn.1 hq⟩)
    refine ⟨v, ?_, ?_⟩
    · show (s.destroy p >>= fun s => Fftw.destroyAll ps s) = _
      unfold Fftw.destroy
      rw [if_pos (h p (by simp))]
      exact h1
    · intro q
      rw [h2]
      simp only [List.mem_filter, bne_iff_ne, List.mem_cons]
      tauto

theorem destroyAll_bad {ps : List Nat} {s : Fftw} (hne : ps ≠ []) (h : ∀ p ∈ ps, p ∉ s.valid) : Fftw.destroyAll ps s = .error .ub := by
  cases ps with
  | nil => exact absurd rfl hne
  | cons p ps =>
    show (s.destroy p >>= fun s => Fftw.destroyAll ps s) = _
    unfold Fftw.destroy
    rw [if_neg (h p (by simp))]
    rfl

/-! ### objects -/

/-- all plans of an object -/
def Obj.plans (o : Obj) : List Nat := o.dct.toList ++ o.sph

/-- an object of this kind -/
def Shape (c : Cfg) (k : Kind) (o : Obj) : Prop :=
  (k = .cheb → o.sph = []) ∧ (k ≠ .cheb → o.sph.length = c.shPlans) ∧ (o.dct ≠ none ↔ hasCheb c k)

theorem Shape.plans_ne {c : Cfg} {k : Kind} {o : Obj} (h : Shape c k o) (hc : c.shPlans ≠ 0) : o.plans ≠ [] := by
  unfold Obj.plans
  intro e
  rw [List.append_eq_nil_iff] at e
  obtain ⟨h1, h2, h3⟩ := h
  by_cases hk : k = .cheb
  · subst hk
    have := h3.mpr trivial
    rw [Option.toList_eq_nil_iff] at e
    exact this e.1
  · have := h2 hk
    rw [e.2] at this
    exact hc this.symm

theorem ctor_spec (c : Cfg) (s : Fftw) (k : Kind) : ∃ o n v, ctor c s k = (o, ⟨n, v⟩) ∧ Shape c k o ∧ o.plans.Nodup ∧ s.next ≤ n ∧
    (∀ p ∈ o.plans, s.next ≤ p ∧ p < n) ∧ ∀ p, p ∈ v ↔ p ∈ o.plans ∨ p ∈ s.valid := by
  obtain ⟨v, h1, h2⟩ := planMany_spec c.shPlans s
  have nd : (List.range' s.next c.shPlans).Nodup := List.nodup_range'
  have mem : ∀ p, p ∈ List.range' s.next c.shPlans ↔ s.next ≤ p ∧ p < s.next + c.shPlans := fun p => List.mem_range'_1
  cases k with
  | cheb =>
    refine ⟨⟨[], some s.next⟩, s.next + 1, s.next :: s.valid, rfl, ⟨fun _ => rfl, fun h => absurd rfl h, by simp [hasCheb]⟩, by simp [Obj.plans], by omega, ?_, ?_⟩
    · simp [Obj.plans]
    · simp [Obj.plans]
  | sphere =>
    refine ⟨⟨List.range' s.next c.shPlans, none⟩, s.next + c.shPlans, v, ?_, ⟨by simp, by simp, by simp [hasCheb]⟩, by simpa [Obj.plans] using nd, by omega, ?_, ?_⟩
    · show (let r := Fftw.planMany c.shPlans s; ((⟨r.1, none⟩ : Obj), r.2)) = _
      rw [h1]
    · simp only [Obj.plans, Option.toList_none, List.nil_append]
      exact fun p hp => (mem p).mp hp
    · simpa [Obj.plans] using h2
  | grid =>
    cases hc : c.useCheb with
    | false =>
      refine ⟨⟨List.range' s.next c.shPlans, none⟩, s.next + c.shPlans, v, ?_, ⟨by simp, by simp, by simp [hasCheb, hc]⟩, by simpa [Obj.plans] using nd, by omega, ?_, ?_⟩
      · simp only [ctor, sphereCtor, h1, hc, Bool.false_eq_true, if_false]
      · simp only [Obj.plans, Option.toList_none, List.nil_append]
        exact fun p hp => (mem p).mp hp
      · simpa [Obj.plans] using h2
    | true =>
      refine ⟨⟨List.range' s.next c.shPlans, some (s.next + c.shPlans)⟩, s.next + c.shPlans + 1, (s.next + c.shPlans) :: v, ?_,
        ⟨by simp, by simp, by simp [hasCheb, hc]⟩, ?_, by omega, ?_, ?_⟩
      · simp only [ctor, sphereCtor, h1, hc, if_true, chebCtor, Fftw.plan]
      · simp only [Obj.plans, Option.toList_some, List.singleton_append, List.nodup_cons]
        exact ⟨by rw [mem]; omega, nd⟩
      · simp only [Obj.plans, Option.toList_some, List.singleton_append, List.mem_cons]
        rintro p (rfl | hp)
        · omega
        · have := (mem p).mp hp; omega
      · intro p
        simp only [Obj.plans, Option.toList_some, List.singleton_append, List.mem_cons, h2]
        tauto

theorem useObj_ok {o : Obj} {s : Fftw} (h : ∀ p ∈ o.plans, p ∈ s.valid) : useObj o s = .ok () := by
  unfold useObj
  unfold Obj.plans at h
  cases hd : o.dct with
  | none =>
    rw [hd] at h
    exact executeAll_ok fun p hp => h p (by simp [hp])
  | some q =>
    rw [hd] at h
    have : s.execute q = .ok () := by unfold Fftw.execute; rw [if_pos (h q (by simp))]
    show (s.execute q >>= fun _ => s.executeAll o.sph) = _
    rw [this]
    exact executeAll_ok fun p hp => h p (by simp [hp])

theorem useObj_bad {o : Obj} {s : Fftw} (hne : o.plans ≠ []) (h : ∀ p ∈ o.plans, p ∉ s.valid) : useObj o s = .error .ub := by
  unfold useObj
  unfold Obj.plans at h hne
  cases hd : o.dct with
  | none =>
    rw [hd] at h hne
    exact executeAll_bad (by simpa using hne) fun p hp => h p (by simp [hp])
  | some q =>
    rw [hd] at h
    have : s.execute q = .error .ub := by unfold Fftw.execute; rw [if_neg (h q (by simp))]
    show (s.execute q >>= fun _ => s.executeAll o.sph) = _
    rw [this]
    rfl

theorem dtor_bad {o : Obj} {s : Fftw} (hne : o.plans ≠ []) (h : ∀ p ∈ o.plans, p ∉ s.valid) : dtor o s = .error .ub := by
  unfold dtor
  unfold Obj.plans at h hne
  cases hd : o.dct with
  | none =>
    rw [hd] at h hne
    exact destroyAll_bad (by simpa using hne) fun p hp => h p (by simp [hp])
  | some q =>
    rw [hd] at h
    have : chebDtor q s = .error .ub := by unfold chebDtor Fftw.destroy; rw [if_neg (h q (by simp))]; rfl
    show (chebDtor q s >>= fun s => sphereDtor o.sph s) = _
    rw [this]
    rfl

theorem dtor_none {o : Obj} {s : Fftw} (hd : o.dct = none) (hn : o.plans.Nodup) (h : ∀ p ∈ o.plans, p ∈ s.valid) :
    ∃ v, dtor o s = .ok ⟨s.next, v⟩ ∧ ∀ p, p ∈ v ↔ p ∈ s.valid ∧ p ∉ o.plans := by
  have e : o.plans = o.sph := by simp [Obj.plans, hd]
  rw [e] at hn h ⊢
  obtain ⟨v, h1, h2⟩ := destroyAll_ok hn h
  refine ⟨v, ?_, h2⟩
  unfold dtor
  rw [hd]
  exact h1

theorem chebDtor_ok {q : Nat} {s : Fftw} (h : q ∈ s.valid) : chebDtor q s = .ok ⟨s.next, []⟩ := by
  unfold chebDtor Fftw.destroy
  rw [if_pos h]
  rfl

/-! ### the invariant -/

/-- what is true after a history that ran without error -/
structure Inv (c : Cfg) (h : List Op) (s : St) : Prop where
  none_iff : ∀ i, s.obj i = none ↔ kindAfter h i = none
  shape : ∀ i o k, s.obj i = some o → kindAfter h i = some k → Shape c k o
  nodup : ∀ i o, s.obj i = some o → o.plans.Nodup
  disj : ∀ i j o o', i ≠ j → s.obj i = some o → s.obj j = some o' → ∀ p ∈ o.plans, p ∉ o'.plans
  bound : ∀ i o, s.obj i = some o → ∀ p ∈ o.plans, p < s.lib.next
  sick : ∀ i o, s.obj i = some o → Poisoned c h i → ∀ p ∈ o.plans, p ∉ s.lib.valid
  well : ∀ i o, s.obj i = some o → ¬ Poisoned c h i → ∀ p ∈ o.plans, p ∈ s.lib.valid
  owned : ∀ p ∈ s.lib.valid, ∃ i o, s.obj i = some o ∧ p ∈ o.plans
  fresh : ∀ p ∈ s.lib.valid, p < s.lib.next

theorem inv_init (c : Cfg) : Inv c [] St.init := by
  constructor <;> simp [St.init, kindAfter, Fftw.init]

theorem Inv.kind {c : Cfg} {h : List Op} {s : St} (I : Inv c h s) {i : Nat} {o : Obj} (ho : s.obj i = some o) :
    ∃ k, kindAfter h i = some k ∧ Shape c k o := by
  cases hk : kindAfter h i with
  | none => rw [(I.none_iff i).mpr hk] at ho; cases ho
  | some k => exact ⟨k, rfl, I.shape i o k ho hk⟩

theorem Inv.obj {c : Cfg} {h : List Op} {s : St} (I : Inv c h s) {i : Nat} (hk : kindAfter h i ≠ none) : ∃ o, s.obj i = some o := by
  cases ho : s.obj i with
  | none => exact absurd ((I.none_iff i).mp ho) hk
  | some o => exact ⟨o, rfl⟩

theorem step_new {c : Cfg} {h : List Op} {s : St} (I : Inv c h s) {i : Nat} {k : Kind} (hk : kindAfter h i = none) :
    ∃ s', step c s (.new i k) = .ok s' ∧ Inv c (h ++ [.new i k]) s' := by
  obtain ⟨o, n, v, e, h1, h2, h3, h4, h5⟩ := ctor_spec c s.lib k
  have hi : s.obj i = none := (I.none_iff i).mpr hk
  have hs : step c s (.new i k) = .ok ⟨⟨n, v⟩, fun j => if j = i then some o else s.obj j⟩ := by
    simp only [step, hi]
    rw [e]
  have hp : ∀ j, Poisoned c (h ++ [.new i k]) j ↔ Poisoned c h j := by
    intro j
    rw [poisoned_snoc]
    simp
  refine ⟨_, hs, ?_⟩
  constructor
  · intro j
    rw [kindAfter_snoc]
    dsimp only
    by_cases hj : j = i
    · subst hj; simp
    · rw [if_neg hj, if_neg (Ne.symm hj)]; exact I.none_iff j
  · intro j o' k' ho hk'
    rw [kindAfter_snoc] at hk'
    dsimp only at ho hk'
    by_cases hj : j = i
    · subst hj
      rw [if_pos rfl] at ho hk'
      cases ho; cases hk'; exact h1
    · rw [if_neg hj] at ho; rw [if_neg (Ne.symm hj)] at hk'
      exact I.shape j o' k' ho hk'
  · intro j o' ho
    dsimp only at ho
    split_ifs at ho
    · cases ho; exact h2
    · exact I.nodup j o' ho
  · intro a b oa ob hab ha hb p hp1 hp2
    dsimp only at ha hb
    split_ifs at ha hb with ha' hb' hb'
    · exact hab (ha'.trans hb'.symm)
    · cases ha
      have := I.bound b ob hb p hp2
      have := (h4 p hp1).1
      omega
    · cases hb
      have := I.bound a oa ha p hp1
      have := (h4 p hp2).1
      omega
    · exact I.disj a b oa ob hab ha hb p hp1 hp2
  · intro j o' ho p hp'
    dsimp only at ho ⊢
    split_ifs at ho
    · cases ho; exact (h4 p hp').2
    · exact Nat.lt_of_lt_of_le (I.bound j o' ho p hp') h3
  · intro j o' ho hj p hp'
    rw [hp] at hj
    dsimp only at ho ⊢
    rw [h5]
    split_ifs at ho with hji
    · subst hji; exact absurd hk hj.exists
    · rintro (h | h)
      · have := I.bound j o' ho p hp'
        have := (h4 p h).1
        omega
      · exact I.sick j o' ho hj p hp' h
  · intro j o' ho hj p hp'
    rw [hp] at hj
    dsimp only at ho ⊢
    rw [h5]
    split_ifs at ho
    · cases ho; exact .inl hp'
    · exact .inr (I.well j o' ho hj p hp')
  · intro p hp'
    dsimp only at hp' ⊢
    rw [h5] at hp'
    rcases hp' with hp' | hp'
    · exact ⟨i, o, by rw [if_pos rfl], hp'⟩
    · obtain ⟨j, o', ho', hq⟩ := I.owned p hp'
      refine ⟨j, o', ?_, hq⟩
      rw [if_neg]
      · exact ho'
      · rintro rfl; rw [hi] at ho'; cases ho'
  · intro p hp'
    dsimp only at hp' ⊢
    rw [h5] at hp'
    rcases hp' with hp' | hp'
    · exact (h4 p hp').2
    · exact Nat.lt_of_lt_of_le (I.fresh p hp') h3

theorem inv_use {c : Cfg} {h : List Op} {s : St} (I : Inv c h s) (i : Nat) : Inv c (h ++ [.use i]) s := by
  have hp : ∀ j, Poisoned c (h ++ [.use i]) j ↔ Poisoned c h j := by
    intro j
    rw [poisoned_snoc]
    simp
  have hk : ∀ j, kindAfter (h ++ [.use i]) j = kindAfter h j := fun j => kindAfter_snoc _ _ _
  exact ⟨fun j => by rw [hk]; exact I.none_iff j, fun j o k ho h => by rw [hk] at h; exact I.shape j o k ho h, I.nodup, I.disj, I.bound,
    fun j o ho h => by rw [hp] at h; exact I.sick j o ho h, fun j o ho h => by rw [hp] at h; exact I.well j o ho h, I.owned, I.fresh⟩

theorem step_use_ok {c : Cfg} {h : List Op} {s : St} (I : Inv c h s) {i : Nat} (hk : kindAfter h i ≠ none) (hi : ¬ Poisoned c h i) :
    step c s (.use i) = .ok s := by
  obtain ⟨o, ho⟩ := I.obj hk
  simp only [step, ho]
  rw [useObj_ok (I.well i o ho hi)]
  rfl

theorem step_use_bad {c : Cfg} {h : List Op} {s : St} (I : Inv c h s) (hc : c.shPlans ≠ 0) {i : Nat} (hi : Poisoned c h i) :
    step c s (.use i) = .error .ub := by
  obtain ⟨o, ho⟩ := I.obj hi.exists
  obtain ⟨k, _, hs⟩ := I.kind ho
  simp only [step, ho]
  rw [useObj_bad (hs.plans_ne hc) (I.sick i o ho hi)]
  rfl

theorem step_del_bad {c : Cfg} {h : List Op} {s : St} (I : Inv c h s) (hc : c.shPlans ≠ 0) {i : Nat} (hi : Poisoned c h i) :
    step c s (.del i) = .error .ub := by
  obtain ⟨o, ho⟩ := I.obj hi.exists
  obtain ⟨k, _, hs⟩ := I.kind ho
  simp only [step, ho]
  rw [dtor_bad (hs.plans_ne hc) (I.sick i o ho hi)]
  rfl

theorem step_del_grid {c : Cfg} {h : List Op} {s : St} (I : Inv c h s) (hc : c.shPlans ≠ 0) {i : Nat} (hi : ¬ Poisoned c h i)
    (hk : kindAfter h i = some .grid) (hch : c.useCheb = true) : step c s (.del i) = .error .ub := by
  obtain ⟨o, ho⟩ := I.obj (i := i) (by rw [hk]; simp)
  have hs := I.shape i o _ ho hk
  have hd := hs.2.2.mpr hch
  have hl := hs.2.1 (by decide)
  cases hq : o.dct with
  | none => exact absurd hq hd
  | some q =>
    have hv := I.well i o ho hi q (by simp [Obj.plans, hq])
    have : dtor o s.lib = .error .ub := by
      unfold dtor
      rw [hq]
      show (chebDtor q s.lib >>= fun s => sphereDtor o.sph s) = _
      rw [chebDtor_ok hv]
      exact destroyAll_bad (by intro e; rw [e] at hl; exact hc hl.symm) (by simp)
    simp only [step, ho]
    rw [this]
    rfl

/-- destroying an object without a Chebyshev transform -/
theorem step_del_plain {c : Cfg} {h : List Op} {s : St} (I : Inv c h s) {i : Nat} {k : Kind} (hi : ¬ Poisoned c h i)
    (hk : kindAfter h i = some k) (hch : ¬ hasCheb c k) : ∃ s', step c s (.del i) = .ok s' ∧ Inv c (h ++ [.del i]) s' := by
  obtain ⟨o, ho⟩ := I.obj (i := i) (by rw [hk]; simp)
  have hs := I.shape i o _ ho hk
  have hd : o.dct = none := by by_contra hd; exact hch (hs.2.2.mp hd)
  obtain ⟨v, e, hv⟩ := dtor_none hd (I.nodup i o ho) (I.well i o ho hi)
  have hstep : step c s (.del i) = .ok ⟨⟨s.lib.next, v⟩, fun j => if j = i then none else s.obj j⟩ := by
    simp only [step, ho]
    rw [e]
    rfl
  have hp : ∀ j, j ≠ i → (Poisoned c (h ++ [.del i]) j ↔ Poisoned c h j) := by
    intro j hj
    rw [poisoned_snoc]
    constructor
    · rintro (h | ⟨i', k', h1, h2, h3, h4⟩)
      · exact h.1
      · injection h1 with h1
        subst h1
        rw [hk] at h2
        cases h2
        exact absurd h3 hch
    · intro h
      exact .inl ⟨h, by intro e; injection e with e; exact hj e.symm⟩
  refine ⟨_, hstep, ?_⟩
  have ne : ∀ {j o'}, (if j = i then none else s.obj j) = some o' → j ≠ i ∧ s.obj j = some o' := by
    intro j o' h
    split_ifs at h with hj
    exact ⟨hj, h⟩
  constructor
  · intro j
    rw [kindAfter_snoc]
    dsimp only
    by_cases hj : j = i
    · subst hj; simp
    · rw [if_neg hj, if_neg (Ne.symm hj)]; exact I.none_iff j
  · intro j o' k' ho' hk'
    obtain ⟨hj, ho'⟩ := ne ho'
    rw [kindAfter_snoc] at hk'
    dsimp only at hk'
    rw [if_neg (Ne.symm hj)] at hk'
    exact I.shape j o' k' ho' hk'
  · intro j o' ho'; exact I.nodup j o' (ne ho').2
  · intro a b oa ob hab ha hb; exact I.disj a b oa ob hab (ne ha).2 (ne hb).2
  · intro j o' ho'; exact I.bound j o' (ne ho').2
  · intro j o' ho' hj p hp'
    obtain ⟨hji, ho'⟩ := ne ho'
    rw [hp j hji] at hj
    dsimp only
    rw [hv]
    exact fun h => I.sick j o' ho' hj p hp' h.1
  · intro j o' ho' hj p hp'
    obtain ⟨hji, ho'⟩ := ne ho'
    rw [hp j hji] at hj
    dsimp only
    rw [hv]
    exact ⟨I.well j o' ho' hj p hp', I.disj j i o' o hji ho' ho p hp'⟩
  · intro p hp'
    dsimp only at hp' ⊢
    rw [hv] at hp'
    obtain ⟨j, o', ho', hq⟩ := I.owned p hp'.1
    refine ⟨j, o', ?_, hq⟩
    rw [if_neg]
    · exact ho'
    · rintro rfl; rw [ho] at ho'; cases ho'; exact hp'.2 hq
  · intro p hp'
    dsimp only at hp'
    rw [hv] at hp'
    exact I.fresh p hp'.1

/-- destroying a Chebyshev object -/
theorem step_del_cheb {c : Cfg} {h : List Op} {s : St} (I : Inv c h s) {i : Nat} (hi : ¬ Poisoned c h i)
    (hk : kindAfter h i = some .cheb) : ∃ s', step c s (.del i) = .ok s' ∧ Inv c (h ++ [.del i]) s' := by
  obtain ⟨o, ho⟩ := I.obj (i := i) (by rw [hk]; simp)
  have hs := I.shape i o _ ho hk
  have hsph := hs.1 rfl
  have hd := hs.2.2.mpr trivial
  obtain ⟨q, hq⟩ := Option.ne_none_iff_exists'.mp hd
  have e : dtor o s.lib = .ok ⟨s.lib.next, []⟩ := by
    unfold dtor
    rw [hq]
    show (chebDtor q s.lib >>= fun s => sphereDtor o.sph s) = _
    rw [chebDtor_ok (I.well i o ho hi q (by simp [Obj.plans, hq])), hsph]
    rfl
  have hstep : step c s (.del i) = .ok ⟨⟨s.lib.next, []⟩, fun j => if j = i then none else s.obj j⟩ := by
    simp only [step, ho]
    rw [e]
    rfl
  refine ⟨_, hstep, ?_⟩
  have ne : ∀ {j o'}, (if j = i then none else s.obj j) = some o' → j ≠ i ∧ s.obj j = some o' := by
    intro j o' h
    split_ifs at h with hj
    exact ⟨hj, h⟩
  constructor
  · intro j
    rw [kindAfter_snoc]
    dsimp only
    by_cases hj : j = i
    · subst hj; simp
    · rw [if_neg hj, if_neg (Ne.symm hj)]; exact I.none_iff j
  · intro j o' k' ho' hk'
    obtain ⟨hj, ho'⟩ := ne ho'
    rw [kindAfter_snoc] at hk'
    dsimp only at hk'
    rw [if_neg (Ne.symm hj)] at hk'
    exact I.shape j o' k' ho' hk'
  · intro j o' ho'; exact I.nodup j o' (ne ho').2
  · intro a b oa ob hab ha hb; exact I.disj a b oa ob hab (ne ha).2 (ne hb).2
  · intro j o' ho'; exact I.bound j o' (ne ho').2
  · intro j o' ho' hj p hp'; simp
  · intro j o' ho' hj
    obtain ⟨hji, ho'⟩ := ne ho'
    refine absurd ?_ hj
    rw [poisoned_snoc]
    refine .inr ⟨i, .cheb, rfl, hk, trivial, hji, ?_⟩
    intro hn
    rw [(I.none_iff j).mpr hn] at ho'
    cases ho'
  · simp
  · simp

/-- The run of a lifetime-respecting history and the rule about clean-ups. -/
theorem run_iff {c : Cfg} (hc : c.shPlans ≠ 0) (h : List Op) (H : Legit h) :
    ((∃ s, run c St.init h = .ok s) ↔ NoForeignCleanup c h) ∧ (∀ s, run c St.init h = .ok s → Inv c h s) ∧
      (∀ e, run c St.init h = .error e → e = .ub) := by
  induction h using List.reverseRecOn with
  | nil =>
    refine ⟨⟨fun _ => ?_, fun _ => ⟨_, rfl⟩⟩, ?_, ?_⟩
    · rintro a i b k e; simp at e
    · rintro s e; cases e; exact inv_init c
    · intro e he; cases he
  | append_singleton h o ih =>
    obtain ⟨H', Ho⟩ := legit_snoc H
    obtain ⟨i1, i2, i3⟩ := ih H'
    rw [run_snoc, noForeign_snoc]
    cases hr : run c St.init h with
    | error e =>
      have : ¬ NoForeignCleanup c h := by rw [← i1, hr]; rintro ⟨s, hs⟩; cases hs
      refine ⟨⟨?_, fun h => absurd h.1 this⟩, ?_, ?_⟩
      · rintro ⟨s, hs⟩; cases hs
      · intro s hs; cases hs
      · intro e' he; cases he; exact i3 e hr
    | ok s =>
      have I := i2 s hr
      have nf : NoForeignCleanup c h := i1.mp ⟨s, hr⟩
      show ((∃ s', step c s o = .ok s') ↔ _) ∧ (∀ s', step c s o = .ok s' → _) ∧ _
      have good : ∀ {s'}, step c s o = .ok s' → Inv c (h ++ [o]) s' → (∀ j, o = .use j ∨ o = .del j → ¬ Poisoned c h j) →
          (∀ i k, o = .del i → kindAfter h i = some k → hasCheb c k → k ≠ .grid) →
          ((∃ s', step c s o = .ok s') ↔ NoForeignCleanup c h ∧ (∀ j, o = .use j ∨ o = .del j → ¬ Poisoned c h j) ∧
            (∀ i k, o = .del i → kindAfter h i = some k → hasCheb c k → k ≠ .grid)) ∧
          (∀ s', step c s o = .ok s' → Inv c (h ++ [o]) s') ∧ (∀ e, step c s o = .error e → e = .ub) := by
        intro s' e1 e2 e3 e4
        refine ⟨⟨fun _ => ⟨nf, e3, e4⟩, fun _ => ⟨s', e1⟩⟩, ?_, ?_⟩
        · intro s'' h; rw [e1] at h; cases h; exact e2
        · intro e h; rw [e1] at h; cases h
      have bad : step c s o = .error .ub → ¬ ((∀ j, o = .use j ∨ o = .del j → ¬ Poisoned c h j) ∧
            (∀ i k, o = .del i → kindAfter h i = some k → hasCheb c k → k ≠ .grid)) →
          ((∃ s', step c s o = .ok s') ↔ NoForeignCleanup c h ∧ (∀ j, o = .use j ∨ o = .del j → ¬ Poisoned c h j) ∧
            (∀ i k, o = .del i → kindAfter h i = some k → hasCheb c k → k ≠ .grid)) ∧
          (∀ s', step c s o = .ok s' → Inv c (h ++ [o]) s') ∧ (∀ e, step c s o = .error e → e = .ub) := by
        intro e1 e2
        refine ⟨⟨?_, fun h => absurd h.2 e2⟩, ?_, ?_⟩
        · rintro ⟨s', h⟩; rw [e1] at h; cases h
        · intro s' h; rw [e1] at h; cases h
        · intro e h; rw [e1] at h; cases h; rfl
      cases o with
      | new i k =>
        obtain ⟨s', e1, e2⟩ := step_new I (k := k) Ho
        exact good e1 e2 (by simp) (by simp)
      | use i =>
        by_cases hp : Poisoned c h i
        · exact bad (step_use_bad I hc hp) (fun h => h.1 i (.inl rfl) hp)
        · refine good (step_use_ok I Ho hp) (inv_use I i) ?_ (by simp)
          rintro j (e | e)
          · injection e with e; exact e ▸ hp
          · cases e
      | del i =>
        by_cases hp : Poisoned c h i
        · exact bad (step_del_bad I hc hp) (fun h => h.1 i (.inr rfl) hp)
        · have hpj : ∀ j, Op.del i = .use j ∨ Op.del i = .del j → ¬ Poisoned c h j := by
            rintro j (e | e)
            · cases e
            · injection e with e; exact e ▸ hp
          obtain ⟨k, hk⟩ := Option.ne_none_iff_exists'.mp Ho
          have uniq : ∀ i' k', Op.del i = .del i' → kindAfter h i' = some k' → k' = k := by
            intro i' k' e h'
            injection e with e
            subst e
            rw [hk] at h'
            cases h'
            rfl
          by_cases hch : hasCheb c k
          · cases k with
            | cheb =>
              obtain ⟨s', e1, e2⟩ := step_del_cheb I hp hk
              exact good e1 e2 hpj (fun i' k' e h1 _ => by rw [uniq i' k' e h1]; decide)
            | sphere => exact absurd hch (by simp [hasCheb])
            | grid => exact bad (step_del_grid I hc hp hk hch) (fun h => h.2 i _ rfl hk hch rfl)
          · obtain ⟨s', e1, e2⟩ := step_del_plain I hp hk hch
            exact good e1 e2 hpj (fun i' k' e h1 h2 => absurd ((uniq i' k' e h1) ▸ h2) hch)

/-- With the rule about clean-ups, every history runs, however many plans SHTns holds. -/
theorem run_ok_of {c : Cfg} (h : List Op) (H : Legit h) (nf : NoForeignCleanup c h) : ∃ s, run c St.init h = .ok s ∧ Inv c h s := by
  induction h using List.reverseRecOn with
  | nil => exact ⟨_, rfl, inv_init c⟩
  | append_singleton h o ih =>
    obtain ⟨H', Ho⟩ := legit_snoc H
    obtain ⟨nf1, nf2, nf3⟩ := (noForeign_snoc c h o).mp nf
    obtain ⟨s, hr, I⟩ := ih H' nf1
    rw [run_snoc, hr]
    show ∃ s', step c s o = .ok s' ∧ _
    cases o with
    | new i k => exact step_new I Ho
    | use i => exact ⟨s, step_use_ok I Ho (nf2 i (.inl rfl)), inv_use I i⟩
    | del i =>
      have hp := nf2 i (.inr rfl)
      obtain ⟨k, hk⟩ := Option.ne_none_iff_exists'.mp Ho
      by_cases hch : hasCheb c k
      · cases k with
        | cheb => exact step_del_cheb I hp hk
        | sphere => exact absurd hch (by simp [hasCheb])
        | grid => exact absurd rfl (nf3 i _ rfl hk hch)
      · exact step_del_plain I hp hk hch

/-- without objects that contain a Chebyshev transform the rule holds by itself -/
theorem noForeign_of_noCheb {c : Cfg} {h : List Op} (hk : ∀ i k, Op.new i k ∈ h → ¬ hasCheb c k) : NoForeignCleanup c h := by
  have key : ∀ (a : List Op) (i : Nat) (k : Kind), kindAfter a i = some k → .new i k ∈ a := by
    intro a
    induction a using List.reverseRecOn with
    | nil => intro i k e; cases e
    | append_singleton a o ih =>
      intro i k e
      rw [kindAfter_snoc] at e
      rw [List.mem_append]
      cases o with
      | new j k' =>
        dsimp only at e
        split_ifs at e with hj
        · cases e; subst hj; exact .inr (by simp)
        · exact .inl (ih i k e)
      | use j => exact .inl (ih i k e)
      | del j =>
        dsimp only at e
        split_ifs at e with hj
        exact .inl (ih i k e)
  rintro a i b k rfl h1 h2
  exact absurd h2 (hk i k (List.mem_append_left _ (key a i k h1)))

end Life
end SFK
