import Verif.Model.Base

namespace SFK

variable {α σ : Type}

@[simp] theorem ok_bind {α β : Type} (a : α) (f : α → Exec β) : ((Except.ok a : Exec α) >>= f) = f a := rfl
@[simp] theorem err_bind {α β : Type} (e : Err) (f : α → Exec β) :
    ((Except.error e : Exec α) >>= f) = .error e := rfl
@[simp] theorem pure_ok {α : Type} (a : α) : (pure a : Exec α) = .ok a := rfl

theorem cassert_true (nd c : Bool) (h : c = true) : cassert nd c = .ok () := by simp [cassert, h]

@[simp] theorem cassert_decide_true (nd : Bool) {p : Prop} [Decidable p] (h : p) :
    cassert nd (decide p) = .ok () := by simp [cassert, h]

@[simp] theorem cassert_ndebug (c : Bool) : cassert true c = .ok () := by simp [cassert]

@[simp] theorem tab_length (n : Nat) (f : Nat → α) : (tab n f).length = n := by simp [tab]

theorem tab_getElem? (n : Nat) (f : Nat → α) (i : Nat) :
    (tab n f)[i]? = if i < n then some (f i) else none := by
  simp only [tab, List.getElem?_map]
  by_cases h : i < n <;> simp [h]

theorem gv_tab [Inhabited α] {n : Nat} {f : Nat → α} {i : Nat} (h : i < n) : gv (tab n f) i = f i := by
  rw [gv, tab_getElem?, if_pos h]; rfl

theorem rd_tab {n : Nat} {f : Nat → α} {i : Nat} (h : i < n) : rd (tab n f) i = .ok (f i) := by
  rw [rd, tab_getElem?, if_pos h]

theorem rd_ok [Inhabited α] {v : List α} {i : Nat} (h : i < v.length) : rd v i = .ok (gv v i) := by
  simp [rd, gv, h]

theorem rd_ub {v : List α} {i : Nat} (h : v.length ≤ i) : rd v i = .error .ub := by
  simp [rd, h]

theorem wr_ub {v : List α} {i : Nat} {x : α} (h : v.length ≤ i) : wr v i x = .error .ub := by
  simp [wr, Nat.not_lt.mpr h]

theorem wr_ok {v : List α} {i : Nat} {x : α} (h : i < v.length) : wr v i x = .ok (v.set i x) := by
  simp [wr, h]

theorem gv_set [Inhabited α] {v : List α} {i j : Nat} {x : α} (h : i < v.length) :
    gv (v.set i x) j = if i = j then x else gv v j := by
  simp only [gv, List.getElem?_set, h, if_true]
  split <;> simp

theorem list_ext_gv [Inhabited α] {v w : List α} (hl : v.length = w.length)
    (h : ∀ i, i < v.length → gv v i = gv w i) : v = w := by
  apply List.ext_getElem hl
  intro i h1 h2
  have := h i h1
  simpa [gv, h1, h2] using this

theorem eq_tab [Inhabited α] {v : List α} {n : Nat} {f : Nat → α} (hl : v.length = n)
    (h : ∀ i, i < n → gv v i = f i) : v = tab n f := by
  apply list_ext_gv (by simp [hl])
  intro i hi
  rw [gv_tab (hl ▸ hi)]
  exact h i (hl ▸ hi)

theorem tab_gv [Inhabited α] (v : List α) : tab v.length (gv v) = v :=
  (eq_tab rfl (fun _ _ => rfl)).symm

theorem tab_gv' [Inhabited α] {v : List α} {n : Nat} (h : v.length = n) : tab n (gv v) = v :=
  h ▸ tab_gv v

theorem tab_congr {n : Nat} {f g : Nat → α} (h : ∀ i, i < n → f i = g i) : tab n f = tab n g := by
  apply List.map_congr_left
  intro i hi
  exact h i (by simpa using hi)

theorem tab_inj [Inhabited α] {n : Nat} {f g : Nat → α} (h : tab n f = tab n g) {i : Nat} (hi : i < n) :
    f i = g i := by
  have := congrArg (fun v => gv v i) h
  simpa [gv_tab hi] using this

theorem replicate_eq_tab (n : Nat) (x : α) : List.replicate n x = tab n (fun _ => x) := by
  apply List.ext_getElem?
  intro i
  rw [tab_getElem?, List.getElem?_replicate]

theorem wr_tab {n : Nat} {f f' : Nat → α} {k : Nat} {x : α} (hk : k < n) (h1 : f' k = x)
    (h2 : ∀ j, j < n → j ≠ k → f' j = f j) : wr (tab n f) k x = .ok (tab n f') := by
  rw [wr_ok (by simpa using hk)]
  congr 1
  apply List.ext_getElem?
  intro j
  rw [List.getElem?_set, tab_getElem?, tab_getElem?]
  simp only [tab_length]
  by_cases hj : k = j
  · subst hj; simp [hk, h1]
  · simp only [hj, if_false]
    by_cases hjn : j < n
    · simp [hjn, h2 j hjn (Ne.symm hj)]
    · simp [hjn]

/-! ### loops -/

theorem forN_closed (S : Nat → σ) (b : Nat → σ → Exec σ) (c i : Nat)
    (h : ∀ k, i ≤ k → k < i + c → b k (S k) = .ok (S (k + 1))) :
    forN c i (S i) b = .ok (S (i + c)) := by
  induction c generalizing i with
  | zero => simp [forN]
  | succ c ih =>
    simp only [forN]
    rw [h i (Nat.le_refl _) (by omega)]
    simp only
    rw [ih (i + 1) (fun k h1 h2 => h k (by omega) (by omega))]
    congr 2; omega

/-- Closed form of a loop: if `S i` describes the state before iteration `i`, the loop ends in `S hi`. -/
theorem forRange_closed {lo hi : Nat} {s : σ} {b : Nat → σ → Exec σ} (S : Nat → σ) (hle : lo ≤ hi)
    (h0 : s = S lo) (h : ∀ k, lo ≤ k → k < hi → b k (S k) = .ok (S (k + 1))) :
    forRange lo hi s b = .ok (S hi) := by
  unfold forRange
  subst h0
  rw [forN_closed S b (hi - lo) lo (fun k h1 h2 => h k h1 (by omega))]
  congr 2; omega

theorem forRange_empty {lo hi : Nat} {s : σ} {b : Nat → σ → Exec σ} (h : hi ≤ lo) :
    forRange lo hi s b = .ok s := by
  unfold forRange
  rw [Nat.sub_eq_zero_of_le h]; rfl

theorem forRange_first_err {lo hi : Nat} {s : σ} {b : Nat → σ → Exec σ} {e : Err} (h : lo < hi)
    (he : b lo s = .error e) : forRange lo hi s b = .error e := by
  unfold forRange
  obtain ⟨c, hc⟩ : ∃ c, hi - lo = c + 1 := ⟨hi - lo - 1, by omega⟩
  rw [hc]; simp [forN, he]

theorem forN_add (c d i : Nat) (s : σ) (b : Nat → σ → Exec σ) :
    forN (c + d) i s b = (match forN c i s b with | .ok s' => forN d (i + c) s' b | .error e => .error e) := by
  induction c generalizing i s with
  | zero => simp [forN]
  | succ c ih =>
    rw [Nat.succ_add]
    simp only [forN]
    cases b i s with
    | error e => rfl
    | ok s' =>
      simp only [ih]
      have : i + 1 + c = i + (c + 1) := by omega
      rw [this]

theorem forRange_split {lo mid hi : Nat} (h1 : lo ≤ mid) (h2 : mid ≤ hi) (s : σ) (b : Nat → σ → Exec σ) :
    forRange lo hi s b =
      (match forRange lo mid s b with | .ok s' => forRange mid hi s' b | .error e => .error e) := by
  unfold forRange
  have : hi - lo = (mid - lo) + (hi - mid) := by omega
  rw [this, forN_add]
  have : lo + (mid - lo) = mid := by omega
  rw [this]

theorem forRange_congr {lo hi : Nat} {s : σ} {b b' : Nat → σ → Exec σ}
    (h : ∀ i t, lo ≤ i → i < hi → b i t = b' i t) : forRange lo hi s b = forRange lo hi s b' := by
  unfold forRange
  suffices ∀ c i s, (∀ k t, i ≤ k → k < i + c → b k t = b' k t) → forN c i s b = forN c i s b' from
    this _ _ _ (fun k t h1 h2 => h k t h1 (by omega))
  intro c
  induction c with
  | zero => intros; rfl
  | succ c ih =>
    intro i s h
    simp only [forN]
    rw [h i s (Nat.le_refl _) (by omega)]
    cases b' i s with
    | error e => rfl
    | ok s' => exact ih _ _ (fun k t h1 h2 => h k t (by omega) (by omega))

theorem forN_err {P : Err → Prop} {b : Nat → σ → Exec σ} (hb : ∀ i s e, b i s = .error e → P e) :
    ∀ c i s e, forN c i s b = .error e → P e := by
  intro c
  induction c with
  | zero => intro i s e h; simp [forN] at h
  | succ c ih =>
    intro i s e h
    simp only [forN] at h
    cases hx : b i s with
    | error e' => rw [hx] at h; cases h; exact hb _ _ _ hx
    | ok s' => rw [hx] at h; exact ih _ _ _ h

theorem rd_err {v : List α} {i : Nat} {e : Err} (h : rd v i = .error e) : e = .ub := by
  unfold rd at h
  split at h <;> cases h
  rfl

theorem wr_err {v : List α} {i : Nat} {x : α} {e : Err} (h : wr v i x = .error e) : e = .ub := by
  unfold wr at h
  split at h <;> cases h
  rfl

/-- Scatter loop: iteration `i` writes `x i` at position `f i`; `inv` recovers `i` from the position. -/
theorem forRange_wr [Inhabited α] {lo hi n : Nat} {v : List α} {b : Nat → List α → Exec (List α)}
    (f : Nat → Nat) (x : Nat → α) (inv : Nat → Nat) (hv : v.length = n) (hle : lo ≤ hi)
    (hf : ∀ i, lo ≤ i → i < hi → f i < n ∧ inv (f i) = i)
    (hb : ∀ i w, lo ≤ i → i < hi → w.length = n → gv w (f i) = gv v (f i) → b i w = wr w (f i) (x i)) :
    forRange lo hi v b =
      .ok (tab n fun j => if lo ≤ inv j ∧ inv j < hi ∧ f (inv j) = j then x (inv j) else gv v j) := by
  apply forRange_closed
    (fun i => tab n fun j => if lo ≤ inv j ∧ inv j < i ∧ f (inv j) = j then x (inv j) else gv v j) hle
  · rw [← tab_gv' hv]
    apply tab_congr
    intro j hj
    rw [gv_tab hj]
    rw [if_neg]
    omega
  · intro i h1 h2
    obtain ⟨hfi, hinv⟩ := hf i h1 h2
    rw [hb i _ h1 h2 (by simp) (by rw [gv_tab hfi, if_neg (by rw [hinv]; omega)])]
    apply wr_tab hfi
    · rw [hinv, if_pos (by omega)]
    · intro j hj hne
      by_cases hc : lo ≤ inv j ∧ inv j < i ∧ f (inv j) = j
      · rw [if_pos hc, if_pos (by omega)]
      · rw [if_neg hc, if_neg]
        rintro ⟨a1, a2, a3⟩
        have : inv j = i := by omega
        rw [this] at a3
        exact hne a3.symm

/-- Full overwrite by the identity scatter. -/
theorem forRange_fill [Inhabited α] {n : Nat} {v : List α} {b : Nat → List α → Exec (List α)}
    (x : Nat → α) (hv : v.length = n)
    (hb : ∀ i w, i < n → w.length = n → gv w i = gv v i → b i w = wr w i (x i)) :
    forRange 0 n v b = .ok (tab n x) := by
  rw [forRange_wr (n := n) (fun i => i) x (fun i => i) hv (Nat.zero_le _)
    (fun i _ h2 => ⟨h2, rfl⟩) (fun i w _ h2 h3 h4 => hb i w h2 h3 h4)]
  congr 1
  apply tab_congr
  intro j hj
  rw [if_pos (by omega)]

/-- Two nested scatter loops. -/
theorem forRange2_wr [Inhabited α] {A B n : Nat} {v : List α} {b : Nat → Nat → List α → Exec (List α)}
    (f : Nat → Nat → Nat) (x : Nat → Nat → α) (p q : Nat → Nat) (hv : v.length = n)
    (hf : ∀ i j, i < A → j < B → f i j < n ∧ p (f i j) = i ∧ q (f i j) = j)
    (hb : ∀ i j w, i < A → j < B → w.length = n → gv w (f i j) = gv v (f i j) →
      b i j w = wr w (f i j) (x i j)) :
    forRange 0 A v (fun i w => forRange 0 B w (fun j w => b i j w)) =
      .ok (tab n fun k => if p k < A ∧ q k < B ∧ f (p k) (q k) = k then x (p k) (q k) else gv v k) := by
  apply forRange_closed
    (fun i => tab n fun k => if p k < i ∧ q k < B ∧ f (p k) (q k) = k then x (p k) (q k) else gv v k)
    (Nat.zero_le _)
  · rw [← tab_gv' hv]
    apply tab_congr
    intro j hj
    rw [gv_tab hj, if_neg (by omega)]
  · intro i _ hi
    apply (forRange_wr (n := n) (f i) (x i) q (by simp) (Nat.zero_le _)
      (fun j _ hj => ⟨(hf i j hi hj).1, (hf i j hi hj).2.2⟩) ?_).trans
    · congr 1
      apply tab_congr
      intro k hk
      rw [gv_tab hk]
      by_cases h1 : q k < B ∧ f i (q k) = k
      · have hp : p k = i := by
          have := (hf i (q k) hi h1.1).2.1
          rw [h1.2] at this; exact this
        rw [if_pos (by omega), if_pos (by rw [hp]; omega), hp]
      · rw [if_neg (by omega)]
        by_cases h2 : p k < i ∧ q k < B ∧ f (p k) (q k) = k
        · rw [if_pos h2, if_pos (by omega)]
        · rw [if_neg h2, if_neg]
          rintro ⟨a1, a2, a3⟩
          have hp : p k = i := by omega
          rw [hp] at a3
          exact h1 ⟨a2, a3⟩
    · intro j w _ hj hw hgv
      obtain ⟨g1, g2, g3⟩ := hf i j hi hj
      refine hb i j w hi hj hw (hgv.trans ?_)
      rw [gv_tab g1, if_neg (by omega)]

/-- Three nested scatter loops. -/
theorem forRange3_wr [Inhabited α] {A B C n : Nat} {v : List α}
    {b : Nat → Nat → Nat → List α → Exec (List α)}
    (f : Nat → Nat → Nat → Nat) (x : Nat → Nat → Nat → α) (p q r : Nat → Nat) (hv : v.length = n)
    (hf : ∀ i j k, i < A → j < B → k < C →
      f i j k < n ∧ p (f i j k) = i ∧ q (f i j k) = j ∧ r (f i j k) = k)
    (hb : ∀ i j k w, i < A → j < B → k < C → w.length = n → gv w (f i j k) = gv v (f i j k) →
      b i j k w = wr w (f i j k) (x i j k)) :
    forRange 0 A v (fun i w => forRange 0 B w (fun j w => forRange 0 C w (fun k w => b i j k w))) =
      .ok (tab n fun m => if p m < A ∧ q m < B ∧ r m < C ∧ f (p m) (q m) (r m) = m
        then x (p m) (q m) (r m) else gv v m) := by
  apply forRange_closed
    (fun i => tab n fun m => if p m < i ∧ q m < B ∧ r m < C ∧ f (p m) (q m) (r m) = m
        then x (p m) (q m) (r m) else gv v m)
    (Nat.zero_le _)
  · rw [← tab_gv' hv]
    apply tab_congr
    intro j hj
    rw [gv_tab hj, if_neg (by omega)]
  · intro i _ hi
    apply (forRange2_wr (n := n) (f i) (x i) q r (by simp)
      (fun j k hj hk => ⟨(hf i j k hi hj hk).1, (hf i j k hi hj hk).2.2⟩) ?_).trans
    · congr 1
      apply tab_congr
      intro m hm
      rw [gv_tab hm]
      by_cases h1 : q m < B ∧ r m < C ∧ f i (q m) (r m) = m
      · have hp : p m = i := by
          have := (hf i (q m) (r m) hi h1.1 h1.2.1).2.1
          rw [h1.2.2] at this; exact this
        rw [if_pos (by omega), if_pos (by rw [hp]; omega), hp]
      · rw [if_neg (by omega)]
        by_cases h2 : p m < i ∧ q m < B ∧ r m < C ∧ f (p m) (q m) (r m) = m
        · rw [if_pos h2, if_pos (by omega)]
        · rw [if_neg h2, if_neg]
          rintro ⟨a1, a2, a3, a4⟩
          have hp : p m = i := by omega
          rw [hp] at a4
          exact h1 ⟨a2, a3, a4⟩
    · intro j k w hj hk hw hgv
      obtain ⟨g1, g2, g3, g4⟩ := hf i j k hi hj hk
      refine hb i j k w hi hj hk hw (hgv.trans ?_)
      rw [gv_tab g1, if_neg (by omega)]

/-! ### `size_t` arithmetic -/

theorem usub_of_le {a b : Nat} (ha : a < W) (h : b ≤ a) : usub a b = a - b := by
  unfold usub W at *; omega

theorem usub_wrap {a b : Nat} (hb : b < W) (h : a < b) : usub a b = a + W - b := by
  unfold usub W at *; omega

theorem uadd_of_lt {a b : Nat} (h : a + b < W) : uadd a b = a + b := by unfold uadd; exact Nat.mod_eq_of_lt h

theorem umul_of_lt {a b : Nat} (h : a * b < W) : umul a b = a * b := by unfold umul; exact Nat.mod_eq_of_lt h

end SFK
