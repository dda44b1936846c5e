import Verif.Lemmas.Run
/-
Files after a sequence of events.
-/
namespace SFK
open Scalar
variable {α : Type}

/-- does the event concern file `q` -/
def Event.touches (q : List Char) : Event α → Bool
  | .create p => decide (p = q)
  | .append p _ => decide (p = q)
  | .diag .. => false

/-- text the event adds to file `q` -/
def Event.text (q : List Char) : Event α → List Char
  | .append p t => if p = q then t else []
  | _ => []

theorem FS.replay_append (fs : FS) (a b : List (Event α)) : fs.replay (a ++ b) = (fs.replay a).replay b := List.foldl_append

theorem FS.replay_at (q : List Char) : ∀ (es : List (Event α)) (fs : FS), fs.replay es q =
    if es.any (Event.touches q) then some ((fs q).getD [] ++ es.flatMap (Event.text q)) else fs q
  | [], fs => by simp [FS.replay]
  | e :: es, fs => by
    have ih := FS.replay_at q es (fs.after e)
    show (fs.after e).replay es q = _
    rw [ih, List.any_cons, List.flatMap_cons]
    have key : ∀ {t : List Char}, (fs.after e q = some ((fs q).getD [] ++ t) ∧ e.touches q = true ∧ e.text q = t) →
        (if es.any (Event.touches q) = true then some ((fs.after e q).getD [] ++ es.flatMap (Event.text q)) else fs.after e q) =
        if (e.touches q || es.any (Event.touches q)) = true then some ((fs q).getD [] ++ (e.text q ++ es.flatMap (Event.text q))) else fs q := by
      rintro t ⟨h1, h2, h3⟩
      rw [h1, h2, h3]
      simp only [Option.getD_some, Bool.true_or, if_true]
      by_cases hb : es.any (Event.touches q) = true
      · rw [if_pos hb, List.append_assoc]
      · rw [if_neg hb]
        have : es.flatMap (Event.text q) = [] := by
          rw [List.flatMap_eq_nil_iff]
          intro x hx
          have : ¬ x.touches q = true := fun h => hb (List.any_eq_true.mpr ⟨x, hx, h⟩)
          cases x with
          | create p => rfl
          | append p t =>
            simp only [Event.touches, decide_eq_true_eq] at this
            simp [Event.text, this]
          | diag => rfl
        rw [this, List.append_nil]
    have key2 : (fs.after e q = fs q ∧ e.touches q = false ∧ e.text q = []) →
        (if es.any (Event.touches q) = true then some ((fs.after e q).getD [] ++ es.flatMap (Event.text q)) else fs.after e q) =
        if (e.touches q || es.any (Event.touches q)) = true then some ((fs q).getD [] ++ (e.text q ++ es.flatMap (Event.text q))) else fs q := by
      rintro ⟨h1, h2, h3⟩
      rw [h1, h2, h3, Bool.false_or, List.nil_append]
    cases e with
    | create p =>
      by_cases h : q = p
      · subst h
        exact key (t := []) ⟨by simp [FS.after], by simp [Event.touches], rfl⟩
      · exact key2 ⟨by simp [FS.after, h], by simp [Event.touches, Ne.symm h], rfl⟩
    | append p t =>
      by_cases h : q = p
      · subst h
        exact key (t := t) ⟨by simp [FS.after], by simp [Event.touches], by simp [Event.text]⟩
      · exact key2 ⟨by simp [FS.after, h], by simp [Event.touches, Ne.symm h], by simp [Event.text, Ne.symm h]⟩
    | diag => exact key2 ⟨rfl, rfl, rfl⟩

theorem FS.replay_untouched {q : List Char} {es : List (Event α)} (h : ∀ e ∈ es, e.touches q = false) (fs : FS) : fs.replay es q = fs q := by
  rw [FS.replay_at, if_neg]
  rw [Bool.not_eq_true, List.any_eq_false]
  intro x hx
  rw [h x hx]
  decide

section
variable [Scalar α] {io : IOEnv α}

theorem touches_fileEvents {q path : List Char} {ls : List (List Char)} : (fileEvents io path ls).any (Event.touches q)
    = (decide (path = q) && io.canOpen path) := by
  unfold fileEvents
  by_cases hc : io.canOpen path = true
  · rw [if_pos hc, hc, Bool.and_true, List.any_cons, List.any_map]
    by_cases h : path = q
    · simp [Event.touches, h]
    · have : (Event.touches q ∘ Event.append (α := α) path) = fun _ => false := by
        funext x
        simp [Event.touches, h]
      rw [this]
      simp [Event.touches, h]
  · rw [if_neg hc]
    simp [hc]

theorem text_fileEvents {q path : List Char} {ls : List (List Char)} (hc : io.canOpen path = true) :
    (fileEvents io path ls).flatMap (Event.text q) = if path = q then ls.flatten else [] := by
  unfold fileEvents
  rw [if_pos hc, List.flatMap_cons, List.flatMap_map]
  by_cases h : path = q
  · rw [if_pos h]
    subst h
    show [] ++ _ = _
    rw [List.nil_append]
    have : (fun a => Event.text path (Event.append (α := α) path a)) = id := by funext x; simp [Event.text]
    rw [this, List.flatMap_id]
  · rw [if_neg h]
    show [] ++ _ = _
    rw [List.nil_append, List.flatMap_eq_nil_iff]
    intro x _
    simp [Event.text, h]

theorem replay_fileEvents {path : List Char} {ls : List (List Char)} (hc : io.canOpen path = true) (fs : FS) (q : List Char) :
    fs.replay (fileEvents io path ls) q = if q = path then some ((fs q).getD [] ++ ls.flatten) else fs q := by
  rw [FS.replay_at, touches_fileEvents, text_fileEvents hc, hc, Bool.and_true]
  by_cases h : path = q
  · simp [h]
  · simp [h, Ne.symm h]

end

theorem toDigits_inj {a b : Nat} (h : Nat.toDigits 10 a = Nat.toDigits 10 b) : a = b := by
  have h1 := congrArg (fun ds => Nat.ofDigitChars 10 ds 0) h
  simpa using h1

theorem pathOf_inj {dir : List Char} {nm nm' : String} {k k' : Nat} (hn : nm = "f" ∨ nm = "rho") (hn' : nm' = "f" ∨ nm' = "rho")
    (h : pathOf dir nm k = pathOf dir nm' k') : nm = nm' ∧ k = k' := by
  unfold pathOf at h
  rw [List.append_left_inj] at h
  have same : ∀ nm : String, dir ++ '/' :: nm.toList ++ "_RPsl_".toList ++ Nat.toDigits 10 k
      = dir ++ '/' :: nm.toList ++ "_RPsl_".toList ++ Nat.toDigits 10 k' → k = k' := by
    intro nm h
    rw [List.append_right_inj] at h
    exact toDigits_inj h
  have diff : ∀ k k', dir ++ '/' :: "f".toList ++ "_RPsl_".toList ++ Nat.toDigits 10 k
      ≠ dir ++ '/' :: "rho".toList ++ "_RPsl_".toList ++ Nat.toDigits 10 k' := by
    intro k k' h
    rw [List.append_assoc, List.append_assoc, List.append_assoc, List.append_assoc, List.append_right_inj] at h
    injection h with _ h
    simp at h
  rcases hn with rfl | rfl <;> rcases hn' with rfl | rfl
  · exact ⟨rfl, same _ h⟩
  · exact absurd h (diff _ _)
  · exact absurd h.symm (diff _ _)
  · exact ⟨rfl, same _ h⟩

/-- a prefix of a concatenation: some complete pieces and a prefix of the next one -/
theorem prefix_flatMap_range {β : Type} (S : Nat → List β) : ∀ (n : Nat) (pre : List β), pre <+: (List.range n).flatMap S →
    ∃ j, ∃ r, j ≤ n ∧ pre = (List.range j).flatMap S ++ r ∧ ((j = n ∧ r = []) ∨ (j < n ∧ r <+: S j))
  | 0, pre, h => ⟨0, [], Nat.le_refl _, by simpa using h, Or.inl ⟨rfl, rfl⟩⟩
  | n + 1, pre, h => by
    rw [List.range_succ, List.flatMap_append, List.flatMap_singleton] at h
    have h0 : pre <+: (List.range n).flatMap S ∨ ∃ r, pre = (List.range n).flatMap S ++ r ∧ r <+: S n := by
      rcases List.prefix_or_prefix_of_prefix h (List.prefix_append _ _) with h1 | ⟨r, rfl⟩
      · exact Or.inl h1
      · exact Or.inr ⟨r, rfl, (List.prefix_append_right_inj _).mp h⟩
    rcases h0 with h1 | ⟨r, rfl, h2⟩
    · obtain ⟨j, r, hj, h3, h4⟩ := prefix_flatMap_range S n pre h1
      rcases h4 with ⟨rfl, rfl⟩ | ⟨hlt, h4⟩
      · exact ⟨j, [], by omega, h3, Or.inr ⟨by omega, List.nil_prefix⟩⟩
      · exact ⟨j, r, by omega, h3, Or.inr ⟨by omega, h4⟩⟩
    · exact ⟨n, r, by omega, rfl, Or.inr ⟨by omega, h2⟩⟩

theorem flatMap_single {β : Type} {f : Nat → List β} {k : Nat} : ∀ {n : Nat}, k < n → (∀ j, j < n → j ≠ k → f j = []) → (List.range n).flatMap f = f k
  | 0, h, _ => by omega
  | n + 1, h, hf => by
    rw [List.range_succ, List.flatMap_append, List.flatMap_singleton]
    by_cases hk : k = n
    · subst hk
      have : (List.range k).flatMap f = [] := by
        rw [List.flatMap_eq_nil_iff]
        intro j hj
        have := List.mem_range.mp hj
        exact hf j (by omega) (by omega)
      rw [this, List.nil_append]
    · rw [flatMap_single (by omega) (fun j a b => hf j (by omega) b), hf n (by omega) (Ne.symm hk), List.append_nil]

end SFK
