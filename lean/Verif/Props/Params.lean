import Verif.Spec.Params
import Verif.Lemmas.Base
import Mathlib.Tactic.Set
/-
C56-C59: the parameter file.
-/
namespace SFK
open Text Params

/-! ### lines -/

theorem takeWhile_split {l r : List Char} {d : Char} (h : d ∉ l) :
    (l ++ d :: r).takeWhile (· != d) = l ∧ (l ++ d :: r).dropWhile (· != d) = d :: r := by
  have h1 : ∀ c ∈ l, (c != d) = true := by
    intro c hc
    simp only [bne_iff_ne, ne_eq]
    rintro rfl
    exact h hc
  constructor
  · rw [List.takeWhile_append_of_pos h1]
    simp
  · rw [List.dropWhile_append_of_pos h1]
    simp

theorem takeWhile_all {l : List Char} {d : Char} (h : d ∉ l) : l.takeWhile (· != d) = l ∧ l.dropWhile (· != d) = [] := by
  have h1 : ∀ c ∈ l, (c != d) = true := by
    intro c hc
    simp only [bne_iff_ne, ne_eq]
    rintro rfl
    exact h hc
  have h2 := takeWhile_split (l := l) (r := []) h
  constructor
  · have := List.takeWhile_append_of_pos (p := (· != d)) (l₂ := []) h1
    simpa using this
  · have := List.dropWhile_append_of_pos (p := (· != d)) (l₂ := []) h1
    simpa using this

/-- name and rest of a line -/
def lineName (l : List Char) : List Char := l.takeWhile (· != ' ')
def lineRest (l : List Char) : List Char := (l.dropWhile (· != ' ')).drop 1

theorem lineName_named {name l : List Char} (hn : ' ' ∉ name) : lineName l = name ↔ Named name l := by
  unfold lineName Named
  constructor
  · intro h
    by_cases hs : ' ' ∈ l
    · right
      obtain ⟨a, b, rfl, ha⟩ := List.eq_append_cons_of_mem hs
      rw [(takeWhile_split ha).1] at h
      exact ⟨b, by rw [h]⟩
    · left
      rw [(takeWhile_all hs).1] at h
      exact h
  · rintro (rfl | ⟨r, rfl⟩)
    · exact (takeWhile_all hn).1
    · exact (takeWhile_split hn).1

theorem readLoop_nil (name : List Char) : readLoop name [] = none := by
  unfold readLoop
  simp [getline]

theorem readLoop_step {name s line rest : List Char} (h : getline '\n' s = some (line, rest)) :
    readLoop name s = if lineName line = name then some (extract (lineRest line)) else readLoop name rest := by
  rw [readLoop]
  split
  · rename_i h'; rw [h] at h'; cases h'
  · rename_i l r h'
    rw [h] at h'
    cases h'
    unfold lineName lineRest getline
    cases line with
    | nil => simp
    | cons c t => simp

theorem readLoop_lines {name text : List Char} {ls : List (List Char)} (h : FileLines text ls) :
    readLoop name text = (ls.find? fun l => lineName l = name).map fun l => extract (lineRest l) := by
  induction ls generalizing text with
  | nil =>
    obtain ⟨_, h2⟩ := h
    rcases h2 with h2 | ⟨init, last, h2, _⟩
    · simp at h2
      rw [h2, readLoop_nil]
      rfl
    · simp at h2
  | cons l ls ih =>
    obtain ⟨h1, h2⟩ := h
    have hl : '\n' ∉ l := h1 l List.mem_cons_self
    have key : ∃ rest, getline '\n' text = some (l, rest) ∧ FileLines rest ls := by
      rcases h2 with h2 | ⟨init, last, h2, h3, h4⟩
      · rw [List.flatMap_cons, List.append_assoc, List.singleton_append] at h2
        refine ⟨ls.flatMap (fun l => l ++ ['\n']), ?_, fun x hx => h1 x (List.mem_cons_of_mem _ hx), Or.inl rfl⟩
        unfold getline
        rw [if_neg (by rw [h2]; simp), h2, (takeWhile_split hl).1, (takeWhile_split hl).2]
        rfl
      · cases init with
        | nil =>
          simp only [List.nil_append, List.cons.injEq] at h2
          obtain ⟨rfl, rfl⟩ := h2
          simp only [List.flatMap_nil, List.nil_append] at h4
          refine ⟨[], ?_, by simp, Or.inl rfl⟩
          unfold getline
          rw [if_neg (by rw [h4]; exact h3), h4, (takeWhile_all hl).1, (takeWhile_all hl).2]
          rfl
        | cons a init =>
          simp only [List.cons_append, List.cons.injEq] at h2
          obtain ⟨rfl, rfl⟩ := h2
          rw [List.flatMap_cons, List.append_assoc, List.append_assoc, List.singleton_append] at h4
          refine ⟨init.flatMap (fun l => l ++ ['\n']) ++ last, ?_, fun x hx => h1 x (List.mem_cons_of_mem _ hx),
            Or.inr ⟨init, last, rfl, h3, rfl⟩⟩
          unfold getline
          rw [if_neg (by rw [h4]; simp), h4, (takeWhile_split hl).1, (takeWhile_split hl).2]
          rfl
    obtain ⟨rest, e1, e2⟩ := key
    rw [readLoop_step e1, ih e2, List.find?_cons]
    by_cases hn : lineName l = name
    · simp [hn]
    · simp [hn]

theorem isSpace_eq : isSpace = White := by
  funext c
  have key : ∀ d : Char, (c == d) = decide (c.toNat = d.toNat) := by
    intro d
    rw [Bool.eq_iff_iff, beq_iff_eq, decide_eq_true_iff, Char.toNat_inj]
  unfold isSpace White
  rw [key, key, key, key, key, key, Bool.eq_iff_iff]
  simp only [Bool.or_eq_true, decide_eq_true_iff]
  show ((((c.toNat = 32 ∨ c.toNat = 9) ∨ c.toNat = 10) ∨ c.toNat = 13) ∨ c.toNat = 11) ∨ c.toNat = 12 ↔ _
  omega

theorem extract_token {s tok : List Char} (h : FirstToken s tok) : extract s = tok := by
  obtain ⟨ws, tail, rfl, h1, h2, h3, h4⟩ := h
  rw [← isSpace_eq] at h1 h2 h3
  unfold extract
  rw [List.append_assoc, List.dropWhile_append_of_pos h1]
  have hd : (tok ++ tail).dropWhile isSpace = tok ++ tail := by
    cases tok with
    | nil => rw [h4 rfl]; rfl
    | cons c t => simp [List.dropWhile_cons, h2 c List.mem_cons_self]
  rw [hd, List.takeWhile_append_of_pos (by intro c hc; simp [h2 c hc])]
  rcases h3 with rfl | ⟨c, t, rfl, h3⟩
  · simp
  · simp [List.takeWhile_cons, h3]

/-- Every text has lines, and every string has a first token (so the theorems below are about all file contents). -/
theorem exists_fileLines (text : List Char) : ∃ ls, FileLines text ls := by
  have key : ∀ n (text : List Char), text.length ≤ n → ∃ ls, FileLines text ls := by
    intro n
    induction n with
    | zero =>
      intro text h
      have : text = [] := List.length_eq_zero_iff.mp (by omega)
      subst this
      exact ⟨[], by simp, Or.inl rfl⟩
    | succ n ih =>
      intro text h
      by_cases hs : '\n' ∈ text
      · obtain ⟨a, b, rfl, ha⟩ := List.eq_append_cons_of_mem hs
        obtain ⟨ls, h1, h2⟩ := ih b (by simp at h; omega)
        refine ⟨a :: ls, ?_, ?_⟩
        · intro l hl
          rcases List.mem_cons.mp hl with rfl | hl
          · exact ha
          · exact h1 l hl
        · rcases h2 with h2 | ⟨init, last, h2, h3, h4⟩
          · left
            rw [List.flatMap_cons, ← h2]
            simp
          · right
            refine ⟨a :: init, last, by rw [h2]; rfl, h3, ?_⟩
            rw [List.flatMap_cons, h4]
            simp
      · by_cases h0 : text = []
        · subst h0
          exact ⟨[], by simp, Or.inl rfl⟩
        · exact ⟨[text], by simpa using hs, Or.inr ⟨[], text, rfl, h0, rfl⟩⟩
  exact key _ text (Nat.le_refl _)

theorem firstToken_extract (s : List Char) : FirstToken s (extract s) := by
  unfold extract FirstToken
  rw [← isSpace_eq]
  refine ⟨s.takeWhile isSpace, (s.dropWhile isSpace).dropWhile fun c => !isSpace c, ?_, ?_, ?_, ?_, ?_⟩
  · rw [List.append_assoc, List.takeWhile_append_dropWhile, List.takeWhile_append_dropWhile]
  · intro c hc
    exact List.all_takeWhile (p := isSpace) (l := s) |> List.all_eq_true.mp |> (· c hc)
  · intro c hc
    have := (List.all_takeWhile (p := fun c => !isSpace c) (l := s.dropWhile isSpace)) |> List.all_eq_true.mp |> (· c hc)
    simpa using this
  · cases h : (s.dropWhile isSpace).dropWhile fun c => !isSpace c with
    | nil => exact Or.inl rfl
    | cons c t =>
      right
      refine ⟨c, t, rfl, ?_⟩
      have := List.head?_dropWhile_not (p := fun c => !isSpace c) (l := s.dropWhile isSpace)
      rw [h] at this
      simpa using this
  · intro h
    cases h' : s.dropWhile isSpace with
    | nil => rfl
    | cons c t =>
      rw [h'] at h
      have hc := List.head?_dropWhile_not (p := isSpace) (l := s)
      rw [h'] at hc
      simp only [List.head?_cons, Bool.not_eq_true'] at hc
      simp [List.takeWhile_cons, hc] at h


/-! ### lookup -/

theorem readLoop_valueIn {name text v : List Char} {ls : List (List Char)} (h : FileLines text ls) (hn : ' ' ∉ name) :
    readLoop name text = some v ↔ ValueIn ls name v := by
  rw [readLoop_lines h]
  constructor
  · intro h1
    rw [Option.map_eq_some_iff] at h1
    obtain ⟨l, h1, h2⟩ := h1
    rw [List.find?_eq_some_iff_append] at h1
    obtain ⟨h1, pre, post, rfl, h3⟩ := h1
    refine ⟨pre, l, post, rfl, ?_, ?_⟩
    · intro x hx hx'
      have := h3 x hx
      rw [(lineName_named hn).mpr hx'] at this
      simp at this
    · have h1' : Named name l := (lineName_named hn).mp (by simpa using h1)
      rcases h1' with rfl | ⟨r, rfl⟩
      · left
        refine ⟨rfl, ?_⟩
        rw [← h2]
        unfold lineRest
        rw [(takeWhile_all hn).2]
        rfl
      · right
        refine ⟨r, rfl, ?_⟩
        rw [← h2]
        unfold lineRest
        rw [(takeWhile_split hn).2]
        exact firstToken_extract r
  · rintro ⟨pre, l, post, rfl, h1, h2⟩
    have hl : Named name l := by
      rcases h2 with ⟨h2, _⟩ | ⟨r, h2, _⟩
      · exact Or.inl h2
      · exact Or.inr ⟨r, h2⟩
    rw [List.find?_append, List.find?_eq_none.mpr, Option.none_or, List.find?_cons_of_pos]
    · rw [Option.map_some]
      congr 1
      rcases h2 with ⟨rfl, rfl⟩ | ⟨r, rfl, h2⟩
      · unfold lineRest
        rw [(takeWhile_all hn).2]
        rfl
      · unfold lineRest
        rw [(takeWhile_split hn).2]
        exact extract_token h2
    · simp [(lineName_named hn).mpr hl]
    · intro x hx
      have := h1 x hx
      rw [← lineName_named hn] at this
      simpa using this

theorem read_eq {nd : Bool} {file : Option (List Char)} (h : nd = true ∨ file.isSome = true) (name : String) :
    read nd file name = match readLoop name.toList (file.getD []) with
      | some v => .ok v
      | none => .error (.exit 0) := by
  unfold Params.read cassert
  rw [if_pos (by rcases h with h | h <;> simp [h])]
  rfl

/-- **C56.** Looking up `name` in a file succeeds with value `v` exactly if `v` is the first token after the name on the first line
about that name. -/
theorem C56_lookup {nd : Bool} {text v : List Char} {ls : List (List Char)} {name : String} (h : FileLines text ls)
    (hn : ' ' ∉ name.toList) : read nd (some text) name = .ok v ↔ ValueIn ls name.toList v := by
  rw [read_eq (Or.inr rfl), ← readLoop_valueIn h hn, Option.getD_some]
  cases readLoop name.toList text <;> simp

/-- **C56.** If no line is about the name, the process exits with status 0. -/
theorem C56_absent {nd : Bool} {text : List Char} {ls : List (List Char)} {name : String} (h : FileLines text ls)
    (hn : ' ' ∉ name.toList) : read nd (some text) name = .error (.exit 0) ↔ ∀ l ∈ ls, ¬ Named name.toList l := by
  rw [read_eq (Or.inr rfl), Option.getD_some, readLoop_lines h]
  have : (∀ l ∈ ls, ¬ Named name.toList l) ↔ (ls.find? fun l => lineName l = name.toList) = none := by
    rw [List.find?_eq_none]
    constructor
    · intro h1 x hx
      have := h1 x hx
      rw [← lineName_named hn] at this
      simpa using this
    · intro h1 x hx
      rw [← lineName_named hn]
      simpa using h1 x hx
  rw [this]
  cases ls.find? fun l => lineName l = name.toList <;> simp

/-- **C56.** Lines not about the name never influence the result: two files whose lines about the name are the same (in the same
order) give the same result, whatever the other lines are. -/
theorem C56_other_lines {nd : Bool} {text text' : List Char} {ls ls' : List (List Char)} {name : String} (h : FileLines text ls)
    (h' : FileLines text' ls') (hn : ' ' ∉ name.toList)
    (hs : (@List.filter (List Char) (fun l => @decide (Named name.toList l) (Classical.propDecidable _)) ls)
      = @List.filter (List Char) (fun l => @decide (Named name.toList l) (Classical.propDecidable _)) ls') :
    read nd (some text) name = read nd (some text') name := by
  rw [read_eq (Or.inr rfl), read_eq (Or.inr rfl), Option.getD_some, Option.getD_some, readLoop_lines h, readLoop_lines h']
  have key : ∀ ls : List (List Char), (ls.find? fun l => lineName l = name.toList)
      = (@List.filter (List Char) (fun l => @decide (Named name.toList l) (Classical.propDecidable _)) ls).head? := by
    intro ls
    rw [List.head?_filter]
    congr 1
    funext l
    rw [decide_eq_decide, lineName_named hn]
  rw [key, key, hs]

/-- The line `rl_0 -1.0` is not about `rl`. -/
example : ¬ Named "rl".toList "rl_0 -1.0".toList := by
  rintro (h | ⟨r, h⟩) <;> simp at h

/-- The hypotheses of the lookup theorems are met by a file in which `rl` follows `rl_0`. -/
example : ∃ ls, FileLines "nx 65\nrl_0 -1.0\nrl  -1.5 x\nrl 7\n".toList ls ∧ ValueIn ls "rl".toList "-1.5".toList := by
  refine ⟨["nx 65".toList, "rl_0 -1.0".toList, "rl  -1.5 x".toList, "rl 7".toList], ⟨by decide, Or.inl (by decide)⟩,
    ["nx 65".toList, "rl_0 -1.0".toList], "rl  -1.5 x".toList, ["rl 7".toList], rfl, ?_, Or.inr ⟨" -1.5 x".toList, rfl, ?_⟩⟩
  · intro x hx
    simp only [List.mem_cons, List.not_mem_nil, or_false] at hx
    rcases hx with rfl | rfl <;> (rintro (h | ⟨r, h⟩) <;> simp at h)
  · exact ⟨[' '], " x".toList, rfl, by decide, by decide, Or.inr ⟨' ', ['x'], rfl, rfl⟩, by decide⟩

/-! ### integers -/

theorem dropWhile_of_head {p : Char → Bool} {l : List Char} (h : ∀ c, l.head? = some c → p c = false) : l.dropWhile p = l := by
  cases l with
  | nil => rfl
  | cons c t => simp [List.dropWhile_cons, h c rfl]

theorem takeWhile_of_head {p : Char → Bool} {l : List Char} (h : ∀ c, l.head? = some c → p c = false) : l.takeWhile p = [] := by
  cases l with
  | nil => rfl
  | cons c t => simp [List.takeWhile_cons, h c rfl]

theorem digit_not_space {c : Char} (h : c.isDigit = true) : isSpace c = false := by
  unfold isSpace
  simp only [Bool.or_eq_false_iff, beq_eq_false_iff_ne, ne_eq]
  refine ⟨⟨⟨⟨⟨?_, ?_⟩, ?_⟩, ?_⟩, ?_⟩, ?_⟩ <;> (rintro rfl; revert h; decide)

theorem digit_not_sign {c : Char} (h : c.isDigit = true) : c ≠ '-' ∧ c ≠ '+' := by
  constructor <;> (rintro rfl; revert h; decide)

instance (n : Int) : Decidable (IsInt n) := inferInstanceAs (Decidable (_ ∧ _))

/-- What `std::stoi` computes on text that has an integer in it. -/
theorem stoi_text {t : List Char} {n : Int} (h : IntText t n) : stoi t = if IsInt n then .ok n else .error .exc := by
  obtain ⟨ws, sign, ds, tail, rfl, h1, h2, h3, h4, h5⟩ := h
  rw [← isSpace_eq] at h1
  obtain ⟨d, ds', rfl⟩ := List.exists_cons_of_ne_nil h2
  have hd : d.isDigit = true := h3 d List.mem_cons_self
  have hds : ((d :: ds') ++ tail).takeWhile Char.isDigit = d :: ds' := by
    rw [List.takeWhile_append_of_pos h3, takeWhile_of_head h4, List.append_nil]
  have e0 : (ws ++ sign ++ (d :: ds') ++ tail).dropWhile isSpace = sign ++ ((d :: ds') ++ tail) := by
    rw [List.append_assoc, List.append_assoc, List.dropWhile_append_of_pos h1]
    apply dropWhile_of_head
    intro c hc
    rcases h5 with ⟨rfl | rfl, _⟩ | ⟨rfl, _⟩
    · simp at hc; rw [← hc]; exact digit_not_space hd
    · simp at hc; rw [← hc]; decide
    · simp at hc; rw [← hc]; decide
  unfold stoi
  simp only [e0]
  have key : ∀ v : Int, (if v < -2 ^ 31 ∨ 2 ^ 31 ≤ v then (.error .exc : Exec Int) else .ok v) = if IsInt v then .ok v else .error .exc := by
    intro v
    by_cases hv : v < -2 ^ 31 ∨ 2 ^ 31 ≤ v
    · rw [if_pos hv, if_neg (by unfold IsInt; omega)]
    · rw [if_neg hv, if_pos (by unfold IsInt; omega)]
  rcases h5 with ⟨rfl | rfl, rfl⟩ | ⟨rfl, rfl⟩
  · rw [List.nil_append]
    simp only [List.cons_append, List.head?_cons, Option.some_beq_some, beq_iff_eq, Bool.or_eq_true, (digit_not_sign hd).1,
      (digit_not_sign hd).2, or_self, if_false]
    rw [← List.cons_append, hds, if_neg (by simp), ← key]
  · simp only [List.cons_append, List.nil_append, List.head?_cons, Option.some_beq_some, beq_iff_eq, Bool.or_eq_true,
      show ¬ ('+' : Char) = '-' by decide, false_or, if_true, if_false, List.tail_cons]
    rw [← List.cons_append, hds, if_neg (by simp), ← key]
  · simp only [List.cons_append, List.nil_append, List.head?_cons, Option.some_beq_some, beq_iff_eq, Bool.or_eq_true,
      true_or, if_true, List.tail_cons]
    rw [← List.cons_append, hds, if_neg (by simp), ← key]

theorem intText_or (t : List Char) : (∃ n, IntText t n) ∨ stoi t = .error .exc := by
  by_cases h : stoi t = .error .exc
  · exact Or.inr h
  left
  unfold stoi at h
  simp only at h
  set s := t.dropWhile isSpace with hs
  set s' := if (s.head? == some '-' || s.head? == some '+') = true then s.tail else s with hs'
  split at h
  · exact absurd rfl h
  rename_i hds
  have hws : ∀ c ∈ t.takeWhile isSpace, isSpace c = true := by
    intro c hc
    exact List.all_takeWhile (p := isSpace) (l := t) |> List.all_eq_true.mp |> (· c hc)
  unfold IntText
  rw [← isSpace_eq]
  have hdd : ∀ c ∈ s'.takeWhile Char.isDigit, c.isDigit = true := by
    intro c hc
    exact List.all_takeWhile (p := Char.isDigit) (l := s') |> List.all_eq_true.mp |> (· c hc)
  have htl : ∀ c, (s'.dropWhile Char.isDigit).head? = some c → c.isDigit = false := by
    intro c hc
    have := List.head?_dropWhile_not (p := Char.isDigit) (l := s')
    rw [hc] at this
    simpa using this
  have e1 : t = t.takeWhile isSpace ++ s := (List.takeWhile_append_dropWhile (p := isSpace) (l := t)).symm
  have e2 : s' = s'.takeWhile Char.isDigit ++ s'.dropWhile Char.isDigit := (List.takeWhile_append_dropWhile).symm
  by_cases hm : s.head? = some '-'
  · refine ⟨-(Nat.ofDigitChars 10 (s'.takeWhile Char.isDigit) 0 : Int), t.takeWhile isSpace, ['-'], s'.takeWhile Char.isDigit,
      s'.dropWhile Char.isDigit, ?_, hws, hds, hdd, htl, Or.inr ⟨rfl, rfl⟩⟩
    rw [List.append_assoc, ← e2, hs', if_pos (by simp [hm]), List.append_assoc, List.singleton_append]
    obtain ⟨u, hu⟩ : ∃ u, s = '-' :: u := List.head?_eq_some_iff.mp hm
    rw [hu, List.tail_cons, ← hu]
    exact e1
  · by_cases hp : s.head? = some '+'
    · refine ⟨(Nat.ofDigitChars 10 (s'.takeWhile Char.isDigit) 0 : Int), t.takeWhile isSpace, ['+'], s'.takeWhile Char.isDigit,
        s'.dropWhile Char.isDigit, ?_, hws, hds, hdd, htl, Or.inl ⟨Or.inr rfl, rfl⟩⟩
      rw [List.append_assoc, ← e2, hs', if_pos (by simp [hp]), List.append_assoc, List.singleton_append]
      obtain ⟨u, hu⟩ : ∃ u, s = '+' :: u := List.head?_eq_some_iff.mp hp
      rw [hu, List.tail_cons, ← hu]
      exact e1
    · refine ⟨(Nat.ofDigitChars 10 (s'.takeWhile Char.isDigit) 0 : Int), t.takeWhile isSpace, [], s'.takeWhile Char.isDigit,
        s'.dropWhile Char.isDigit, ?_, hws, hds, hdd, htl, Or.inl ⟨Or.inl rfl, rfl⟩⟩
      rw [List.append_assoc, ← e2, hs', if_neg (by simp [hm, hp]), List.append_nil]
      exact e1

/-- **C58.** Reading an integer succeeds exactly on text that starts with a decimal integer that fits in 32 bits, and gives that
integer; anything else throws. -/
theorem C58_integer_text (t : List Char) :
    (∀ n, stoi t = .ok n ↔ IntText t n ∧ IsInt n) ∧ ((∀ n, ¬ (IntText t n ∧ IsInt n)) → stoi t = .error .exc) := by
  rcases intText_or t with ⟨n, h⟩ | h
  · have e := stoi_text h
    by_cases hi : IsInt n
    · rw [if_pos hi] at e
      refine ⟨fun m => ⟨?_, ?_⟩, fun h' => absurd ⟨h, hi⟩ (h' n)⟩
      · intro h'
        rw [e] at h'
        cases h'
        exact ⟨h, hi⟩
      · rintro ⟨h', hi'⟩
        have := stoi_text h'
        rw [if_pos hi'] at this
        exact this
    · rw [if_neg hi] at e
      refine ⟨fun m => ⟨?_, ?_⟩, fun _ => e⟩
      · intro h'
        rw [e] at h'
        cases h'
      · rintro ⟨h', hi'⟩
        have := stoi_text h'
        rw [if_pos hi'] at this
        exact this
  · refine ⟨fun m => ⟨?_, ?_⟩, fun _ => h⟩
    · intro h'
      rw [h] at h'
      cases h'
    · rintro ⟨h', hi'⟩
      have := stoi_text h'
      rw [if_pos hi'] at this
      exact this

theorem ofDigitChars_toDigits10 (n : Nat) : Nat.ofDigitChars 10 (Nat.toDigits 10 n) 0 = n := Nat.ofDigitChars_ten_toDigits

theorem intText_digits (n : Nat) (tail : List Char) (ht : ∀ c, tail.head? = some c → c.isDigit = false) :
    IntText (Nat.toDigits 10 n ++ tail) n := by
  refine ⟨[], [], Nat.toDigits 10 n, tail, rfl, by simp, Nat.toDigits_ne_nil, ?_, ht, Or.inl ⟨Or.inl rfl, ?_⟩⟩
  · intro c hc
    exact Nat.isDigit_of_mem_toDigits (b := 10) (by decide) (by decide) hc
  · rw [ofDigitChars_toDigits10]

theorem intText_neg (n : Nat) (tail : List Char) (ht : ∀ c, tail.head? = some c → c.isDigit = false) :
    IntText ('-' :: (Nat.toDigits 10 n ++ tail)) (-n) := by
  refine ⟨[], ['-'], Nat.toDigits 10 n, tail, rfl, by simp, Nat.toDigits_ne_nil, ?_, ht, Or.inr ⟨rfl, ?_⟩⟩
  · intro c hc
    exact Nat.isDigit_of_mem_toDigits (b := 10) (by decide) (by decide) hc
  · rw [ofDigitChars_toDigits10]

theorem size_sizeOf (n : Int) (h : IsInt n) : SizeOf n (Params.size n) := by
  unfold IsInt at h
  unfold SizeOf Params.size Sphere.toU W
  omega

theorem sizeOf_unique {n : Int} {u v : Nat} (hu : SizeOf n u) (hv : SizeOf n v) : u = v := by
  unfold SizeOf at *
  omega

/-- **C58.** The decimal form of a number in 0..2^31-1 (also if followed by something that is not a digit, like `.0`) is read as that
number and stored as that size. -/
theorem C58_sizes_exact {n : Nat} (hn : n < 2 ^ 31) {tail : List Char} (ht : ∀ c, tail.head? = some c → c.isDigit = false) :
    stoi (Nat.toDigits 10 n ++ tail) = .ok (n : Int) ∧ Params.size (n : Int) = n := by
  have hi : IsInt (n : Int) := by unfold IsInt; omega
  refine ⟨((C58_integer_text _).1 _).mpr ⟨intText_digits n tail ht, hi⟩, ?_⟩
  have := size_sizeOf _ hi
  unfold SizeOf at this
  omega

/-- **C58.** Numbers of 2^31 or more are rejected. -/
theorem C58_too_large {n : Nat} (hn : 2 ^ 31 ≤ n) {tail : List Char} (ht : ∀ c, tail.head? = some c → c.isDigit = false) :
    stoi (Nat.toDigits 10 n ++ tail) = .error .exc := by
  rw [stoi_text (intText_digits n tail ht), if_neg]
  unfold IsInt
  omega

/-- **C58.** A negative number where a size is expected is accepted and becomes a size just below 2^64. -/
theorem C58_negative_size_wraps {k : Nat} (h1 : 1 ≤ k) (h2 : k ≤ 2 ^ 31) {tail : List Char}
    (ht : ∀ c, tail.head? = some c → c.isDigit = false) :
    stoi ('-' :: (Nat.toDigits 10 k ++ tail)) = .ok (-(k : Int)) ∧ Params.size (-(k : Int)) = 2 ^ 64 - k := by
  have hi : IsInt (-(k : Int)) := by unfold IsInt; omega
  refine ⟨((C58_integer_text _).1 _).mpr ⟨intText_neg k tail ht, hi⟩, ?_⟩
  have := size_sizeOf _ hi
  unfold SizeOf at this
  omega

example : stoi "8193".toList = .ok 8193 := rfl
example : stoi "abc".toList = .error .exc := rfl
example : stoi "".toList = .error .exc := rfl
example : stoi "2147483648".toList = .error .exc := rfl
example : stoi "-3".toList = .ok (-3) := rfl

/-! ### the whole record -/

theorem readInt_ok {nd : Bool} {file : Option (List Char)} {name : String} {n : Int} (h : readInt nd file name = .ok n) :
    ∃ t, read nd file name = .ok t ∧ IntText t n ∧ IsInt n := by
  unfold readInt at h
  cases h' : read nd file name with
  | error e => rw [h'] at h; cases h
  | ok t =>
    rw [h', ok_bind] at h
    exact ⟨t, rfl, ((C58_integer_text t).1 n).mp h⟩

theorem readInt_of {nd : Bool} {file : Option (List Char)} {name : String} {n : Int} {t : List Char} (h : read nd file name = .ok t)
    (h1 : IntText t n) (h2 : IsInt n) : readInt nd file name = .ok n := by
  unfold readInt
  rw [h, ok_bind]
  exact ((C58_integer_text t).1 n).mpr ⟨h1, h2⟩

theorem readDbl_ok {α : Type} {stod : List Char → Option α} {nd : Bool} {file : Option (List Char)} {name : String} {x : α}
    (h : readDbl stod nd file name = .ok x) : ∃ t, read nd file name = .ok t ∧ stod t = some x := by
  unfold readDbl at h
  cases h' : read nd file name with
  | error e => rw [h'] at h; cases h
  | ok t =>
    rw [h', ok_bind] at h
    cases h'' : stod t with
    | none => rw [h''] at h; cases h
    | some y => rw [h''] at h; cases h; exact ⟨t, rfl, h''⟩

theorem readDbl_of {α : Type} {stod : List Char → Option α} {nd : Bool} {file : Option (List Char)} {name : String} {x : α}
    {t : List Char} (h : read nd file name = .ok t) (h1 : stod t = some x) : readDbl stod nd file name = .ok x := by
  unfold readDbl
  rw [h, ok_bind, h1]

theorem bind_ok_inv {β γ : Type} {a : Exec β} {f : β → Exec γ} {y : γ} (h : (a >>= f) = .ok y) : ∃ x, a = .ok x ∧ f x = .ok y := by
  cases a with
  | error e => cases h
  | ok x => exact ⟨x, rfl, h⟩

/-- The value of a name, as the code looks it up. -/
def valOf (nd : Bool) (file : Option (List Char)) (name : String) : Option (List Char) := (read nd file name).toOption

theorem valOf_some {nd : Bool} {file : Option (List Char)} {name : String} {t : List Char} :
    valOf nd file name = some t ↔ read nd file name = .ok t := by
  unfold valOf
  cases read nd file name <;> simp [Except.toOption]

theorem ctor_from {α : Type} {stod : List Char → Option α} {nd : Bool} {file : Option (List Char)} {P : ParamRec α} :
    ctor stod nd file = .ok P ↔ ParamsFrom stod (valOf nd file) P := by
  constructor
  · intro h
    unfold ctor at h
    obtain ⟨nt, e1, h⟩ := bind_ok_inv h
    obtain ⟨nx, e2, h⟩ := bind_ok_inv h
    obtain ⟨nl, e3, h⟩ := bind_ok_inv h
    obtain ⟨nm, e4, h⟩ := bind_ok_inv h
    obtain ⟨nlat, e5, h⟩ := bind_ok_inv h
    obtain ⟨nphi, e6, h⟩ := bind_ok_inv h
    obtain ⟨ts, e7, h⟩ := bind_ok_inv h
    obtain ⟨dt, e8, h⟩ := bind_ok_inv h
    obtain ⟨cl, e9, h⟩ := bind_ok_inv h
    obtain ⟨Rmax, e10, h⟩ := bind_ok_inv h
    obtain ⟨Rmin, e11, h⟩ := bind_ok_inv h
    obtain ⟨mass, e12, h⟩ := bind_ok_inv h
    obtain ⟨spin, e13, h⟩ := bind_ok_inv h
    obtain ⟨km1, e14, h⟩ := bind_ok_inv h
    obtain ⟨k0, e15, h⟩ := bind_ok_inv h
    obtain ⟨k1, e16, h⟩ := bind_ok_inv h
    obtain ⟨k2, e17, h⟩ := bind_ok_inv h
    obtain ⟨V2, e18, h⟩ := bind_ok_inv h
    obtain ⟨V3, e19, h⟩ := bind_ok_inv h
    obtain ⟨V4, e20, h⟩ := bind_ok_inv h
    obtain ⟨id', e21, h⟩ := bind_ok_inv h
    obtain ⟨dir, e22, h⟩ := bind_ok_inv h
    obtain ⟨amp, e23, h⟩ := bind_ok_inv h
    obtain ⟨rl, e24, h⟩ := bind_ok_inv h
    obtain ⟨ru, e25, h⟩ := bind_ok_inv h
    obtain ⟨l, e26, h⟩ := bind_ok_inv h
    obtain ⟨m, e27, h⟩ := bind_ok_inv h
    injection h with h
    subst h
    have A : ∀ {name : String} {n : Int}, readInt nd file name = .ok n →
        ∃ t n', valOf nd file name = some t ∧ IntText t n' ∧ IsInt n' ∧ SizeOf n' (Params.size n) := by
      intro name n h
      obtain ⟨t, h1, h2, h3⟩ := readInt_ok h
      exact ⟨t, n, valOf_some.mpr h1, h2, h3, size_sizeOf n h3⟩
    have A' : ∀ {name : String} {n : Int}, readInt nd file name = .ok n →
        ∃ t n', valOf nd file name = some t ∧ IntText t n' ∧ IsInt n' ∧ n = n' := by
      intro name n h
      obtain ⟨t, h1, h2, h3⟩ := readInt_ok h
      exact ⟨t, n, valOf_some.mpr h1, h2, h3, rfl⟩
    have B : ∀ {name : String} {x : α}, readDbl stod nd file name = .ok x → ∃ t, valOf nd file name = some t ∧ stod t = some x := by
      intro name x h
      obtain ⟨t, h1, h2⟩ := readDbl_ok h
      exact ⟨t, valOf_some.mpr h1, h2⟩
    exact ⟨A e1, A e2, A e3, A e4, A e5, A e6, A e7, B e8, B e9, B e10, B e11, B e12, B e13, B e14, B e15, B e16, B e17, B e18, B e19,
      B e20, valOf_some.mpr e21, valOf_some.mpr e22, B e23, B e24, B e25, A' e26, A' e27⟩
  · intro h
    have A : ∀ {name : String} {u : Nat}, (∃ t n, valOf nd file name = some t ∧ IntText t n ∧ IsInt n ∧ SizeOf n u) →
        ∃ n, readInt nd file name = .ok n ∧ Params.size n = u := by
      rintro name u ⟨t, n, h1, h2, h3, h4⟩
      exact ⟨n, readInt_of (valOf_some.mp h1) h2 h3, sizeOf_unique (size_sizeOf n h3) h4⟩
    have A' : ∀ {name : String} {u : Int}, (∃ t n, valOf nd file name = some t ∧ IntText t n ∧ IsInt n ∧ u = n) →
        readInt nd file name = .ok u := by
      rintro name u ⟨t, n, h1, h2, h3, rfl⟩
      exact readInt_of (valOf_some.mp h1) h2 h3
    have B : ∀ {name : String} {x : α}, (∃ t, valOf nd file name = some t ∧ stod t = some x) → readDbl stod nd file name = .ok x := by
      rintro name x ⟨t, h1, h2⟩
      exact readDbl_of (valOf_some.mp h1) h2
    obtain ⟨nt, e1, f1⟩ := A h.h_nt
    obtain ⟨nx, e2, f2⟩ := A h.h_nx
    obtain ⟨nl, e3, f3⟩ := A h.h_nl
    obtain ⟨nm, e4, f4⟩ := A h.h_nm
    obtain ⟨nlat, e5, f5⟩ := A h.h_nlat
    obtain ⟨nphi, e6, f6⟩ := A h.h_nphi
    obtain ⟨ts, e7, f7⟩ := A h.h_ts
    unfold ctor
    rw [e1, ok_bind, e2, ok_bind, e3, ok_bind, e4, ok_bind, e5, ok_bind, e6, ok_bind, e7, ok_bind, B h.h_dt, ok_bind, B h.h_cl, ok_bind,
      B h.h_Rmax, ok_bind, B h.h_Rmin, ok_bind, B h.h_mass, ok_bind, B h.h_spin, ok_bind, B h.h_km1, ok_bind, B h.h_k0, ok_bind,
      B h.h_k1, ok_bind, B h.h_k2, ok_bind, B h.h_V2, ok_bind, B h.h_V3, ok_bind, B h.h_V4, ok_bind, valOf_some.mp h.h_id, ok_bind,
      valOf_some.mp h.h_dir, ok_bind, B h.h_amp, ok_bind, B h.h_rl, ok_bind, B h.h_ru, ok_bind, A' h.h_l, ok_bind, A' h.h_m, ok_bind,
      f1, f2, f3, f4, f5, f6, f7]

theorem mem_required {n : String} : n ∈ required ↔ n = "nt" ∨ n = "nx" ∨ n = "nl" ∨ n = "nm" ∨ n = "nlat" ∨ n = "nphi" ∨ n = "t_step_save" ∨ n = "l_ang" ∨ n = "m_ang" ∨ n = "dt" ∨ n = "compactification_length" ∨ n = "Rmax" ∨ n = "Rmin" ∨ n = "black_hole_mass" ∨ n = "black_hole_spin" ∨ n = "km1" ∨ n = "k0" ∨ n = "k1" ∨ n = "k2" ∨ n = "V2" ∨ n = "V3" ∨ n = "V4" ∨ n = "amp" ∨ n = "rl" ∨ n = "ru" ∨ n = "initial_data_type" ∨ n = "initial_data_direction" := by
  unfold required intParams dblParams strParams
  simp only [List.cons_append, List.nil_append, List.mem_cons, List.not_mem_nil, or_false]

theorem paramsFrom_congr {α : Type} {stod : List Char → Option α} {val val' : String → Option (List Char)} {P : ParamRec α}
    (e : ∀ n ∈ required, val n = val' n) : ParamsFrom stod val P ↔ ParamsFrom stod val' P := by
  have e1 := e "nt" (by rw [mem_required]; simp only [true_or, or_true])
  have e2 := e "nx" (by rw [mem_required]; simp only [true_or, or_true])
  have e3 := e "nl" (by rw [mem_required]; simp only [true_or, or_true])
  have e4 := e "nm" (by rw [mem_required]; simp only [true_or, or_true])
  have e5 := e "nlat" (by rw [mem_required]; simp only [true_or, or_true])
  have e6 := e "nphi" (by rw [mem_required]; simp only [true_or, or_true])
  have e7 := e "t_step_save" (by rw [mem_required]; simp only [true_or, or_true])
  have e8 := e "dt" (by rw [mem_required]; simp only [true_or, or_true])
  have e9 := e "compactification_length" (by rw [mem_required]; simp only [true_or, or_true])
  have e10 := e "Rmax" (by rw [mem_required]; simp only [true_or, or_true])
  have e11 := e "Rmin" (by rw [mem_required]; simp only [true_or, or_true])
  have e12 := e "black_hole_mass" (by rw [mem_required]; simp only [true_or, or_true])
  have e13 := e "black_hole_spin" (by rw [mem_required]; simp only [true_or, or_true])
  have e14 := e "km1" (by rw [mem_required]; simp only [true_or, or_true])
  have e15 := e "k0" (by rw [mem_required]; simp only [true_or, or_true])
  have e16 := e "k1" (by rw [mem_required]; simp only [true_or, or_true])
  have e17 := e "k2" (by rw [mem_required]; simp only [true_or, or_true])
  have e18 := e "V2" (by rw [mem_required]; simp only [true_or, or_true])
  have e19 := e "V3" (by rw [mem_required]; simp only [true_or, or_true])
  have e20 := e "V4" (by rw [mem_required]; simp only [true_or, or_true])
  have e21 := e "initial_data_type" (by rw [mem_required]; simp only [true_or, or_true])
  have e22 := e "initial_data_direction" (by rw [mem_required]; simp only [true_or, or_true])
  have e23 := e "amp" (by rw [mem_required]; simp only [true_or, or_true])
  have e24 := e "rl" (by rw [mem_required]; simp only [true_or, or_true])
  have e25 := e "ru" (by rw [mem_required]; simp only [true_or, or_true])
  have e26 := e "l_ang" (by rw [mem_required]; simp only [true_or, or_true])
  have e27 := e "m_ang" (by rw [mem_required]; simp only [true_or, or_true])
  constructor
  · rintro ⟨a1, a2, a3, a4, a5, a6, a7, a8, a9, a10, a11, a12, a13, a14, a15, a16, a17, a18, a19, a20, a21, a22, a23, a24, a25, a26, a27⟩
    exact ⟨e1 ▸ a1, e2 ▸ a2, e3 ▸ a3, e4 ▸ a4, e5 ▸ a5, e6 ▸ a6, e7 ▸ a7, e8 ▸ a8, e9 ▸ a9, e10 ▸ a10, e11 ▸ a11, e12 ▸ a12, e13 ▸ a13, e14 ▸ a14, e15 ▸ a15, e16 ▸ a16, e17 ▸ a17, e18 ▸ a18, e19 ▸ a19, e20 ▸ a20, e21 ▸ a21, e22 ▸ a22, e23 ▸ a23, e24 ▸ a24, e25 ▸ a25, e26 ▸ a26, e27 ▸ a27⟩
  · rintro ⟨a1, a2, a3, a4, a5, a6, a7, a8, a9, a10, a11, a12, a13, a14, a15, a16, a17, a18, a19, a20, a21, a22, a23, a24, a25, a26, a27⟩
    exact ⟨e1.symm ▸ a1, e2.symm ▸ a2, e3.symm ▸ a3, e4.symm ▸ a4, e5.symm ▸ a5, e6.symm ▸ a6, e7.symm ▸ a7, e8.symm ▸ a8, e9.symm ▸ a9, e10.symm ▸ a10, e11.symm ▸ a11, e12.symm ▸ a12, e13.symm ▸ a13, e14.symm ▸ a14, e15.symm ▸ a15, e16.symm ▸ a16, e17.symm ▸ a17, e18.symm ▸ a18, e19.symm ▸ a19, e20.symm ▸ a20, e21.symm ▸ a21, e22.symm ▸ a22, e23.symm ▸ a23, e24.symm ▸ a24, e25.symm ▸ a25, e26.symm ▸ a26, e27.symm ▸ a27⟩

theorem required_nosp : ∀ n ∈ required, ' ' ∉ n.toList := by decide

/-- **C56.** Constructing the parameters from a file succeeds with record `P` exactly if every one of the 27 fields of `P` is the value
its own name has in the file. -/
theorem C56_parameters {α : Type} {stod : List Char → Option α} {nd : Bool} {text : List Char} {ls : List (List Char)}
    {P : ParamRec α} (h : FileLines text ls) {val : String → Option (List Char)}
    (hv : ∀ n ∈ required, ∀ v, val n = some v ↔ ValueIn ls n.toList v) :
    ctor stod nd (some text) = .ok P ↔ ParamsFrom stod val P := by
  rw [ctor_from]
  have e : ∀ n ∈ required, valOf nd (some text) n = val n := by
    intro n hn
    apply Option.ext
    intro v
    rw [valOf_some, C56_lookup h (required_nosp n hn), hv n hn]
  rw [paramsFrom_congr e]


/-! ### missing parameters -/

theorem read_error {nd : Bool} {text : List Char} {name : String} {e : Err} (h : read nd (some text) name = .error e) :
    e = .exit 0 := by
  rw [read_eq (Or.inr rfl)] at h
  split at h
  · cases h
  · cases h; rfl

/-- Errors an action may end with. -/
def ErrIn {β : Type} (S : Err → Prop) (a : Exec β) : Prop := ∀ e, a = .error e → S e

theorem ErrIn.bind {β γ : Type} {S : Err → Prop} {a : Exec β} {f : β → Exec γ} (h1 : ErrIn S a) (h2 : ∀ x, ErrIn S (f x)) :
    ErrIn S (a >>= f) := by
  intro e h
  cases a with
  | error e' =>
    cases h
    exact h1 _ rfl
  | ok x => exact h2 x e h

theorem ctor_errIn {α : Type} {S : Err → Prop} {stod : List Char → Option α} {nd : Bool} {file : Option (List Char)}
    (h1 : ∀ n ∈ strParams, ErrIn S (read nd file n)) (h2 : ∀ n ∈ intParams, ErrIn S (readInt nd file n))
    (h3 : ∀ n ∈ dblParams, ErrIn S (readDbl stod nd file n)) : ErrIn S (ctor stod nd file) := by
  simp only [strParams, intParams, dblParams, List.mem_cons, List.not_mem_nil, or_false, forall_eq_or_imp, forall_eq] at h1 h2 h3
  obtain ⟨s1, s2⟩ := h1
  obtain ⟨i1, i2, i3, i4, i5, i6, i7, i8, i9⟩ := h2
  obtain ⟨d1, d2, d3, d4, d5, d6, d7, d8, d9, d10, d11, d12, d13, d14, d15, d16⟩ := h3
  unfold ctor
  exact i1.bind fun _ => i2.bind fun _ => i3.bind fun _ => i4.bind fun _ => i5.bind fun _ => i6.bind fun _ => i7.bind fun _ =>
    d1.bind fun _ => d2.bind fun _ => d3.bind fun _ => d4.bind fun _ => d5.bind fun _ => d6.bind fun _ => d7.bind fun _ =>
    d8.bind fun _ => d9.bind fun _ => d10.bind fun _ => d11.bind fun _ => d12.bind fun _ => d13.bind fun _ => s1.bind fun _ =>
    s2.bind fun _ => d14.bind fun _ => d15.bind fun _ => d16.bind fun _ => i8.bind fun _ => i9.bind fun _ => fun e h => by cases h

theorem ctor_found {α : Type} {stod : List Char → Option α} {nd : Bool} {file : Option (List Char)} {P : ParamRec α}
    (h : ctor stod nd file = .ok P) {n : String} (hn : n ∈ required) : ∃ v, read nd file n = .ok v := by
  rw [ctor_from] at h
  obtain ⟨⟨t1, n1, a1, -⟩, ⟨t2, n2, a2, -⟩, ⟨t3, n3, a3, -⟩, ⟨t4, n4, a4, -⟩, ⟨t5, n5, a5, -⟩, ⟨t6, n6, a6, -⟩, ⟨t7, n7, a7, -⟩,
    ⟨t8, a8, -⟩, ⟨t9, a9, -⟩, ⟨t10, a10, -⟩, ⟨t11, a11, -⟩, ⟨t12, a12, -⟩, ⟨t13, a13, -⟩, ⟨t14, a14, -⟩, ⟨t15, a15, -⟩,
    ⟨t16, a16, -⟩, ⟨t17, a17, -⟩, ⟨t18, a18, -⟩, ⟨t19, a19, -⟩, ⟨t20, a20, -⟩, a21, a22, ⟨t23, a23, -⟩, ⟨t24, a24, -⟩,
    ⟨t25, a25, -⟩, ⟨t26, n26, a26, -⟩, ⟨t27, n27, a27, -⟩⟩ := h
  rw [mem_required] at hn
  rcases hn with rfl | rfl | rfl | rfl | rfl | rfl | rfl | rfl | rfl | rfl | rfl | rfl | rfl | rfl | rfl | rfl | rfl | rfl | rfl | rfl |
    rfl | rfl | rfl | rfl | rfl | rfl | rfl
  · exact ⟨_, valOf_some.mp a1⟩
  · exact ⟨_, valOf_some.mp a2⟩
  · exact ⟨_, valOf_some.mp a3⟩
  · exact ⟨_, valOf_some.mp a4⟩
  · exact ⟨_, valOf_some.mp a5⟩
  · exact ⟨_, valOf_some.mp a6⟩
  · exact ⟨_, valOf_some.mp a7⟩
  · exact ⟨_, valOf_some.mp a26⟩
  · exact ⟨_, valOf_some.mp a27⟩
  · exact ⟨_, valOf_some.mp a8⟩
  · exact ⟨_, valOf_some.mp a9⟩
  · exact ⟨_, valOf_some.mp a10⟩
  · exact ⟨_, valOf_some.mp a11⟩
  · exact ⟨_, valOf_some.mp a12⟩
  · exact ⟨_, valOf_some.mp a13⟩
  · exact ⟨_, valOf_some.mp a14⟩
  · exact ⟨_, valOf_some.mp a15⟩
  · exact ⟨_, valOf_some.mp a16⟩
  · exact ⟨_, valOf_some.mp a17⟩
  · exact ⟨_, valOf_some.mp a18⟩
  · exact ⟨_, valOf_some.mp a19⟩
  · exact ⟨_, valOf_some.mp a20⟩
  · exact ⟨_, valOf_some.mp a23⟩
  · exact ⟨_, valOf_some.mp a24⟩
  · exact ⟨_, valOf_some.mp a25⟩
  · exact ⟨_, valOf_some.mp a21⟩
  · exact ⟨_, valOf_some.mp a22⟩

/-- **C57.** If a required parameter is absent from the file, constructing the parameters does not return: the process exits with
status 0, or an exception reports a malformed number read before. -/
theorem C57_missing_stops {α : Type} {stod : List Char → Option α} {nd : Bool} {text : List Char} {ls : List (List Char)}
    (h : FileLines text ls) {n : String} (hn : n ∈ required) (hm : ∀ l ∈ ls, ¬ Named n.toList l) :
    ctor stod nd (some text) = .error (.exit 0) ∨ ctor stod nd (some text) = .error .exc := by
  cases h' : ctor stod nd (some text) with
  | ok P =>
    obtain ⟨v, hv⟩ := ctor_found h' hn
    rw [(C56_absent h (required_nosp n hn)).mpr hm] at hv
    cases hv
  | error e =>
    have := ctor_errIn (S := fun e => e = .exit 0 ∨ e = .exc) (stod := stod) (nd := nd) (file := some text)
      (fun m _ e he => Or.inl (read_error he))
      (fun m _ e he => by
        unfold readInt at he
        cases h1 : read nd (some text) m with
        | error e' => rw [h1] at he; cases he; exact Or.inl (read_error h1)
        | ok t =>
          rw [h1, ok_bind] at he
          rcases intText_or t with ⟨k, hk⟩ | hk
          · rw [stoi_text hk] at he
            split at he
            · cases he
            · cases he; exact Or.inr rfl
          · rw [hk] at he; cases he; exact Or.inr rfl)
      (fun m _ e he => by
        unfold readDbl at he
        cases h1 : read nd (some text) m with
        | error e' => rw [h1] at he; cases he; exact Or.inl (read_error h1)
        | ok t =>
          rw [h1, ok_bind] at he
          split at he
          · cases he
          · cases he; exact Or.inr rfl) e h'
    rcases this with rfl | rfl
    · exact Or.inl rfl
    · exact Or.inr rfl

/-- **C57** (the claimed failure status is refuted).  If a required parameter is absent and all values that are there are well formed,
the process ends with status 0, the status of a successful run. -/
theorem C57_exit_status_is_success {α : Type} {stod : List Char → Option α} {nd : Bool} {text : List Char} {ls : List (List Char)}
    (h : FileLines text ls) {n : String} (hn : n ∈ required) (hm : ∀ l ∈ ls, ¬ Named n.toList l)
    (hi : ∀ k ∈ intParams, ∀ v, ValueIn ls k.toList v → ∃ j, IntText v j ∧ IsInt j)
    (hd : ∀ k ∈ dblParams, ∀ v, ValueIn ls k.toList v → ∃ x, stod v = some x) :
    ctor stod nd (some text) = .error (.exit 0) := by
  have isub : ∀ k ∈ intParams, k ∈ required := fun k hk => List.mem_append_left _ (List.mem_append_left _ hk)
  have dsub : ∀ k ∈ dblParams, k ∈ required := fun k hk => List.mem_append_left _ (List.mem_append_right _ hk)
  cases h' : ctor stod nd (some text) with
  | ok P =>
    obtain ⟨v, hv⟩ := ctor_found h' hn
    rw [(C56_absent h (required_nosp n hn)).mpr hm] at hv
    cases hv
  | error e =>
    have := ctor_errIn (S := fun e => e = .exit 0) (stod := stod) (nd := nd) (file := some text)
      (fun m _ e he => read_error he)
      (fun m hm e he => by
        unfold readInt at he
        cases h1 : read nd (some text) m with
        | error e' => rw [h1] at he; cases he; exact read_error h1
        | ok t =>
          rw [h1, ok_bind] at he
          obtain ⟨j, h2, h3⟩ := hi m hm t ((C56_lookup h (required_nosp m (isub m hm))).mp h1)
          rw [stoi_text h2, if_pos h3] at he
          cases he)
      (fun m hm e he => by
        unfold readDbl at he
        cases h1 : read nd (some text) m with
        | error e' => rw [h1] at he; cases he; exact read_error h1
        | ok t =>
          rw [h1, ok_bind] at he
          obtain ⟨x, h2⟩ := hd m hm t ((C56_lookup h (required_nosp m (dsub m hm))).mp h1)
          rw [h2] at he
          cases he) e h'
    rw [this]

/-- A file missing everything but `nt` ends with status 0. -/
example : ctor (α := Nat) (fun _ => some 0) true (some "nt 10\n".toList) = .error (.exit 0) := by
  have hf : FileLines "nt 10\n".toList ["nt 10".toList] := ⟨by decide, Or.inl rfl⟩
  have hv : ∀ k v, ValueIn ["nt 10".toList] k v → k = "nt".toList → v = "10".toList := by
    rintro k v ⟨pre, l, post, h1, -, h2⟩ rfl
    have hl : l = "nt 10".toList := by
      rcases pre with _ | ⟨a, _ | ⟨b, c⟩⟩ <;> simp_all
    subst hl
    rcases h2 with ⟨h2, _⟩ | ⟨r, h2, h3⟩
    · simp at h2
    · simp at h2
      rw [← h2] at h3
      rw [← extract_token h3]
      rfl
  refine C57_exit_status_is_success hf (n := "nx") (by rw [mem_required]; simp) ?_ ?_ (fun _ _ _ _ => ⟨0, rfl⟩)
  · intro l hl
    simp only [List.mem_cons, List.not_mem_nil, or_false] at hl
    subst hl
    rintro (h | ⟨r, h⟩) <;> simp at h
  · intro k hk v hv'
    by_cases hk' : k.toList = "nt".toList
    · rw [hv _ _ hv' hk']
      exact ⟨10, intText_digits 10 [] (by simp), by decide⟩
    · obtain ⟨pre, l, post, h1, -, h2⟩ := hv'
      have hl : l = "nt 10".toList := by
        rcases pre with _ | ⟨a, _ | ⟨b, c⟩⟩ <;> simp_all
      subst hl
      have hs := required_nosp k (List.mem_append_left _ (List.mem_append_left _ hk))
      have : Named k.toList "nt 10".toList := by
        rcases h2 with ⟨h2, _⟩ | ⟨r, h2, _⟩
        · exact Or.inl h2
        · exact Or.inr ⟨r, h2⟩
      rw [← lineName_named hs] at this
      exact absurd this.symm hk'

/-! ### the launcher -/

open Launcher

/-- The line written for an attribute, without its newline. -/
def attrLine (a : List Char × PyVal) : List Char :=
  match a.2 with
  | .scalar t => a.1 ++ ' ' :: t
  | .list ts => a.1 ++ ts.flatMap (fun t => ' ' :: t)

theorem write_lines (attrs : List (List Char × PyVal)) :
    write_sim_params attrs = (attrs.map attrLine).flatMap (fun l => l ++ ['\n']) := by
  unfold write_sim_params
  rw [List.flatMap_map]
  congr 1
  funext a
  obtain ⟨n, v⟩ := a
  cases v <;> simp [paramLine, attrLine]

/-- What an attribute prints as. -/
def texts : PyVal → List (List Char)
  | .scalar t => [t]
  | .list ts => ts

/-- Names usable as parameter names and texts usable as values. -/
structure GoodAttrs (attrs : List (List Char × PyVal)) : Prop where
  names : ∀ a ∈ attrs, ' ' ∉ a.1 ∧ '\n' ∉ a.1
  values : ∀ a ∈ attrs, ∀ t ∈ texts a.2, '\n' ∉ t
  distinct : (attrs.map Prod.fst).Nodup

theorem GoodAttrs.lines {attrs : List (List Char × PyVal)} (g : GoodAttrs attrs) :
    FileLines (write_sim_params attrs) (attrs.map attrLine) := by
  refine ⟨?_, Or.inl (write_lines attrs)⟩
  intro l hl
  obtain ⟨a, ha, rfl⟩ := List.mem_map.mp hl
  have h1 := (g.names a ha).2
  have h2 := g.values a ha
  obtain ⟨n, v⟩ := a
  cases v with
  | scalar t =>
    have := h2 t (by simp [texts])
    simp only [attrLine, List.mem_append, List.mem_cons, not_or]
    exact ⟨h1, by decide, this⟩
  | list ts =>
    simp only [attrLine, List.mem_append, List.mem_flatMap, List.mem_cons, not_or, not_exists, not_and]
    exact ⟨h1, fun t ht => ⟨by decide, h2 t ht⟩⟩

theorem named_attr {n : List Char} {a : List Char × PyVal} (hn : ' ' ∉ n) (ha : ' ' ∉ a.1) (h : Named n (attrLine a)) : n = a.1 := by
  rw [← lineName_named hn] at h
  rw [← h]
  have : Named a.1 (attrLine a) := by
    obtain ⟨m, v⟩ := a
    cases v with
    | scalar t => exact Or.inr ⟨t, rfl⟩
    | list ts =>
      cases ts with
      | nil => exact Or.inl (by simp [attrLine])
      | cons t ts => exact Or.inr ⟨t ++ ts.flatMap (fun t => ' ' :: t), by simp [attrLine]⟩
  rw [← lineName_named ha] at this
  rw [this]

theorem roundtrip_aux {attrs : List (List Char × PyVal)} (g : GoodAttrs attrs) {name : String} {val : PyVal} {v : List Char}
    (hm : (name.toList, val) ∈ attrs) (hv : ∃ rest, attrLine (name.toList, val) = name.toList ++ ' ' :: rest ∧ FirstToken rest v)
    (nd : Bool) : read nd (some (write_sim_params attrs)) name = .ok v := by
  have hn := (g.names _ hm).1
  rw [C56_lookup g.lines hn]
  obtain ⟨pre, post, hp⟩ := List.append_of_mem hm
  refine ⟨pre.map attrLine, attrLine (name.toList, val), post.map attrLine, by rw [hp]; simp, ?_, Or.inr hv⟩
  intro x hx hx'
  obtain ⟨a, ha, rfl⟩ := List.mem_map.mp hx
  have e := named_attr hn (g.names a (by rw [hp]; exact List.mem_append_left _ ha)).1 hx'
  have := g.distinct
  rw [hp, List.map_append, List.map_cons, List.nodup_append] at this
  exact this.2.2 a.1 (List.mem_map_of_mem ha) name.toList List.mem_cons_self e.symm

/-- **C59.** A scalar attribute whose printed form is non-empty and has no white space is read back by the solver as that text. -/
theorem C59_roundtrip {attrs : List (List Char × PyVal)} (g : GoodAttrs attrs) {name : String} {v : List Char}
    (hm : (name.toList, PyVal.scalar v) ∈ attrs) (h0 : v ≠ []) (hs : ∀ c ∈ v, White c = false) (nd : Bool) :
    read nd (some (write_sim_params attrs)) name = .ok v :=
  roundtrip_aux g hm ⟨v, rfl, [], [], by simp, by simp, hs, Or.inl rfl, fun h => absurd h h0⟩ nd

/-- **C59.** Of a value with white space in it only the first word is read, and of a list only the first element. -/
theorem C59_first_word {attrs : List (List Char × PyVal)} (g : GoodAttrs attrs) {name : String} {val : PyVal} {v tail : List Char}
    (hm : (name.toList, val) ∈ attrs) (hval : val = .scalar (v ++ ' ' :: tail) ∨ ∃ ts, val = .list (v :: ts))
    (h0 : v ≠ []) (hs : ∀ c ∈ v, White c = false) (nd : Bool) :
    read nd (some (write_sim_params attrs)) name = .ok v := by
  apply roundtrip_aux g hm
  rcases hval with rfl | ⟨ts, rfl⟩
  · exact ⟨v ++ ' ' :: tail, rfl, [], ' ' :: tail, by simp, by simp, hs, Or.inr ⟨' ', tail, rfl, rfl⟩, fun h => absurd h h0⟩
  · refine ⟨v ++ ts.flatMap (fun t => ' ' :: t), by simp [attrLine], [], ts.flatMap (fun t => ' ' :: t), by simp, by simp, hs, ?_,
      fun h => absurd h h0⟩
    cases ts with
    | nil => exact Or.inl rfl
    | cons t ts => exact Or.inr ⟨' ', t ++ ts.flatMap (fun t => ' ' :: t), by simp, rfl⟩

/-- A parameter set like the launcher's meets the hypotheses. -/
example : GoodAttrs [("rl_0".toList, .scalar "-1.0".toList), ("nx".toList, .scalar "8193".toList),
    ("rl".toList, .scalar "-1.0142".toList), ("saves".toList, .list ["1".toList, "2".toList])] := by
  refine ⟨by decide, ?_, by decide⟩
  intro a ha t ht
  simp only [List.mem_cons, List.not_mem_nil, or_false] at ha
  rcases ha with rfl | rfl | rfl | rfl <;> simp [texts] at ht
  · subst ht; decide
  · subst ht; decide
  · subst ht; decide
  · rcases ht with rfl | rfl <;> decide

end SFK
