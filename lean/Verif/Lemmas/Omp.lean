import Verif.Lemmas.Base
import Verif.Model.Omp

set_option linter.unusedSectionVars false

namespace SFK
variable {ι α : Type} [DecidableEq ι]

/-- counted sequential run -/
def Th.runC : Th ι α → Mem ι α → Exec (Mem ι α × Nat)
  | .done, m => .ok (m, 0)
  | .fail e, _ => .error e
  | .size a k, m => ((k (m a).length).runC m).map fun r => (r.1, r.2 + 1)
  | .load a i k, m => (rd (m a) i).bind fun x => ((k x).runC m).map fun r => (r.1, r.2 + 1)
  | .store a i x k, m => (wr (m a) i x).bind fun w => (k.runC (Function.update m a w)).map fun r => (r.1, r.2 + 1)
  | .fork n b k, m => (forRange 0 n (m, 0) fun j s => ((b j).runC s.1).map fun r => (r.1, s.2 + r.2)).bind fun s =>
      (k.runC s.1).map fun r => (r.1, s.2 + r.2 + 1)

/-- footprint: loads in `R`, stores in `Wr` -/
def Th.Fp (R Wr : ι → Nat → Prop) : Th ι α → Prop
  | .done => True
  | .fail _ => True
  | .size _ k => ∀ n, (k n).Fp R Wr
  | .load a i k => R a i ∧ ∀ x, (k x).Fp R Wr
  | .store a i _ k => Wr a i ∧ k.Fp R Wr
  | .fork n b k => (∀ j, j < n → (b j).Fp R Wr) ∧ k.Fp R Wr

/-- race freedom by ownership -/
def Th.RF : Th ι α → Prop
  | .done => True
  | .fail _ => True
  | .size _ k => ∀ n, (k n).RF
  | .load _ _ k => ∀ x, (k x).RF
  | .store _ _ _ k => k.RF
  | .fork n b k => (∃ R Wr : Nat → ι → Nat → Prop, (∀ j, j < n → (b j).Fp (R j) (Wr j)) ∧
      ∀ i j, i < n → j < n → i ≠ j → ∀ a p, Wr i a p → ¬ R j a p ∧ ¬ Wr j a p) ∧ (∀ j, j < n → (b j).RF) ∧ k.RF

open Th

/-- single-cell update -/
def upd (m : Mem ι α) (a : ι) (i : Nat) (x : α) : Mem ι α := Function.update m a ((m a).set i x)

theorem upd_len (m : Mem ι α) (a : ι) (i : Nat) (x : α) (b : ι) : (upd m a i x b).length = (m b).length := by
  unfold upd
  by_cases h : b = a
  · subst h; simp
  · rw [Function.update_of_ne h]

theorem rd_upd {m : Mem ι α} {a : ι} {i : Nat} {x : α} {b : ι} {j : Nat} (h : ¬(b = a ∧ j = i)) :
    rd (upd m a i x b) j = rd (m b) j := by
  unfold upd
  by_cases hb : b = a
  · subst hb
    have : i ≠ j := fun e => h ⟨rfl, e.symm⟩
    simp [rd, List.getElem?_set_ne this]
  · rw [Function.update_of_ne hb]

theorem wr_eq {v : List α} {i : Nat} {x : α} : wr v i x = if i < v.length then .ok (v.set i x) else .error .ub := rfl

theorem wr_ok_iff {v w : List α} {i : Nat} {x : α} : wr v i x = .ok w ↔ i < v.length ∧ w = v.set i x := by
  unfold wr
  split
  · rename_i h
    simp only [Except.ok.injEq]
    exact ⟨fun e => ⟨h, e.symm⟩, fun e => e.2.symm⟩
  · rename_i h
    simp only [reduceCtorEq, false_iff]
    exact fun e => h e.1

theorem update_eq_upd {m : Mem ι α} {a : ι} {i : Nat} {x : α} {w : List α} (h : wr (m a) i x = .ok w) :
    Function.update m a w = upd m a i x := by
  rw [(wr_ok_iff.1 h).2]; rfl

theorem upd_comm {m : Mem ι α} {a b : ι} {i j : Nat} {x y : α} (h : ¬(b = a ∧ j = i)) :
    upd (upd m a i x) b j y = upd (upd m b j y) a i x := by
  funext c
  unfold upd
  by_cases hb : b = a
  · subst hb
    have hij : j ≠ i := fun e => h ⟨rfl, e⟩
    by_cases hc : c = b
    · subst hc
      simp only [Function.update_self]
      rw [List.set_comm _ _ hij.symm]
    · simp [Function.update_of_ne hc]
  · have hab : a ≠ b := fun e => hb e.symm
    by_cases hc : c = b
    · subst hc
      simp [Function.update_self, Function.update_of_ne hb]
    · by_cases hca : c = a
      · subst hca
        simp [Function.update_self, Function.update_of_ne hab]
      · simp [Function.update_of_ne hc, Function.update_of_ne hca]

/-- what we carry about a state transformer with footprint `R`, `Wr` -/
structure Framed (R Wr : ι → Nat → Prop) (F : Mem ι α → Exec (Mem ι α × Nat)) : Prop where
  len : ∀ m m' c, F m = .ok (m', c) → ∀ a, (m' a).length = (m a).length
  keep : ∀ m m' c, F m = .ok (m', c) → ∀ a i, ¬ Wr a i → rd (m' a) i = rd (m a) i
  frame : ∀ m m' c a i x, ¬ R a i → ¬ Wr a i → F m = .ok (m', c) → F (upd m a i x) = .ok (upd m' a i x, c)

theorem map_ok {β γ : Type} {e : Exec β} {f : β → γ} {y : γ} : Except.map f e = .ok y ↔ ∃ x, e = .ok x ∧ f x = y := by
  cases e <;> simp [Except.map]

theorem bind_ok {β γ : Type} {e : Exec β} {f : β → Exec γ} {y : γ} : Except.bind e f = .ok y ↔ ∃ x, e = .ok x ∧ f x = .ok y := by
  cases e <;> simp [Except.bind]

theorem forN_succ_ok {σ : Type} {n lo : Nat} {s r : σ} {b : Nat → σ → Exec σ} : forN (n + 1) lo s b = .ok r ↔
    ∃ s', b lo s = .ok s' ∧ forN n (lo + 1) s' b = .ok r := by
  rw [forN]
  cases h : b lo s with
  | error e => simp
  | ok s' => simp

theorem forN_framed {R Wr : ι → Nat → Prop} {F : Nat → Mem ι α → Exec (Mem ι α × Nat)} :
    ∀ (n lo c0 : Nat), (∀ j, lo ≤ j → j < lo + n → Framed R Wr (F j)) →
      Framed R Wr (fun m => forN n lo (m, c0) fun j s => (F j s.1).map fun r => (r.1, s.2 + r.2)) := by
  intro n
  induction n with
  | zero =>
    intro lo c0 _
    refine ⟨?_, ?_, ?_⟩
    · intro m m' c h a
      simp only [forN, Except.ok.injEq, Prod.mk.injEq] at h
      rw [h.1]
    · intro m m' c h a i _
      simp only [forN, Except.ok.injEq, Prod.mk.injEq] at h
      rw [h.1]
    · intro m m' c a i x _ _ h
      simp only [forN, Except.ok.injEq, Prod.mk.injEq] at h ⊢
      rw [h.1]; exact ⟨rfl, h.2⟩
  | succ n ih =>
    intro lo c0 hF
    have h0 := hF lo (Nat.le_refl _) (by omega)
    have unf : ∀ m m' c, (forN (n + 1) lo (m, c0) fun j s => (F j s.1).map fun r => (r.1, s.2 + r.2)) = .ok (m', c) ↔
        ∃ m1 c1, F lo m = .ok (m1, c1) ∧ (forN n (lo + 1) (m1, c0 + c1) fun j s => (F j s.1).map fun r => (r.1, s.2 + r.2)) = .ok (m', c) := by
      intro m m' c
      rw [forN_succ_ok]
      constructor
      · rintro ⟨s', e1, e2⟩
        obtain ⟨⟨m1, c1⟩, e3, rfl⟩ := map_ok.1 e1
        exact ⟨m1, c1, e3, e2⟩
      · rintro ⟨m1, c1, e1, e2⟩
        exact ⟨(m1, c0 + c1), map_ok.2 ⟨_, e1, rfl⟩, e2⟩
    have hn := fun c => ih (lo + 1) c fun j h1 h2 => hF j (by omega) (by omega)
    refine ⟨?_, ?_, ?_⟩
    · intro m m' c h a
      obtain ⟨m1, c1, e1, e2⟩ := (unf _ _ _).1 h
      rw [(hn _).len _ _ _ e2 a, h0.len _ _ _ e1 a]
    · intro m m' c h a i hw
      obtain ⟨m1, c1, e1, e2⟩ := (unf _ _ _).1 h
      rw [(hn _).keep _ _ _ e2 a i hw, h0.keep _ _ _ e1 a i hw]
    · intro m m' c a i x hr hw h
      obtain ⟨m1, c1, e1, e2⟩ := (unf _ _ _).1 h
      exact (unf _ _ _).2 ⟨upd m1 a i x, c1, h0.frame _ _ _ _ _ _ hr hw e1, (hn _).frame _ _ _ _ _ _ hr hw e2⟩

theorem runC_framed {R Wr : ι → Nat → Prop} (t : Th ι α) : t.Fp R Wr → Framed R Wr t.runC := by
  induction t with
  | done =>
    intro _
    refine ⟨?_, ?_, ?_⟩
    · intro m m' c h a; simp only [runC, Except.ok.injEq, Prod.mk.injEq] at h; rw [h.1]
    · intro m m' c h a i _; simp only [runC, Except.ok.injEq, Prod.mk.injEq] at h; rw [h.1]
    · intro m m' c a i x _ _ h; simp only [runC, Except.ok.injEq, Prod.mk.injEq] at h ⊢; rw [h.1]; exact ⟨rfl, h.2⟩
  | fail e =>
    intro _
    refine ⟨?_, ?_, ?_⟩
    · intro m m' c h; simp [runC] at h
    · intro m m' c h; simp [runC] at h
    · intro m m' c a i x _ _ h; simp [runC] at h
  | size b k ih =>
    intro hf
    have ih := fun n => ih n (hf n)
    refine ⟨?_, ?_, ?_⟩
    · intro m m' c h a
      obtain ⟨⟨m1, c1⟩, e1, e2⟩ := map_ok.1 h
      cases e2
      exact (ih _).len _ _ _ e1 a
    · intro m m' c h a i hw
      obtain ⟨⟨m1, c1⟩, e1, e2⟩ := map_ok.1 h
      cases e2
      exact (ih _).keep _ _ _ e1 a i hw
    · intro m m' c a i x hr hw h
      obtain ⟨⟨m1, c1⟩, e1, e2⟩ := map_ok.1 h
      cases e2
      refine map_ok.2 ⟨(upd m1 a i x, c1), ?_, rfl⟩
      rw [upd_len]
      exact (ih _).frame _ _ _ _ _ _ hr hw e1
  | load b p k ih =>
    intro hf
    have ih := fun x => ih x (hf.2 x)
    refine ⟨?_, ?_, ?_⟩
    · intro m m' c h a
      obtain ⟨y, e0, h⟩ := bind_ok.1 h
      obtain ⟨⟨m1, c1⟩, e1, e2⟩ := map_ok.1 h
      cases e2
      exact (ih _).len _ _ _ e1 a
    · intro m m' c h a i hw
      obtain ⟨y, e0, h⟩ := bind_ok.1 h
      obtain ⟨⟨m1, c1⟩, e1, e2⟩ := map_ok.1 h
      cases e2
      exact (ih _).keep _ _ _ e1 a i hw
    · intro m m' c a i x hr hw h
      obtain ⟨y, e0, h⟩ := bind_ok.1 h
      obtain ⟨⟨m1, c1⟩, e1, e2⟩ := map_ok.1 h
      cases e2
      refine bind_ok.2 ⟨y, ?_, map_ok.2 ⟨(upd m1 a i x, c1), (ih _).frame _ _ _ _ _ _ hr hw e1, rfl⟩⟩
      rw [rd_upd (fun ⟨u, v⟩ => hr (by rw [← u, ← v]; exact hf.1))]
      exact e0
  | store b p y k ih =>
    intro hf
    have ih := ih hf.2
    refine ⟨?_, ?_, ?_⟩
    · intro m m' c h a
      obtain ⟨w, e0, h⟩ := bind_ok.1 h
      rw [update_eq_upd e0] at h
      obtain ⟨⟨m1, c1⟩, e1, e2⟩ := map_ok.1 h
      cases e2
      rw [ih.len _ _ _ e1 a, upd_len]
    · intro m m' c h a i hw
      obtain ⟨w, e0, h⟩ := bind_ok.1 h
      rw [update_eq_upd e0] at h
      obtain ⟨⟨m1, c1⟩, e1, e2⟩ := map_ok.1 h
      cases e2
      rw [ih.keep _ _ _ e1 a i hw, rd_upd (fun ⟨u, v⟩ => hw (by rw [u, v]; exact hf.1))]
    · intro m m' c a i x hr hw h
      obtain ⟨w, e0, h⟩ := bind_ok.1 h
      rw [update_eq_upd e0] at h
      obtain ⟨⟨m1, c1⟩, e1, e2⟩ := map_ok.1 h
      cases e2
      have hlt := (wr_ok_iff.1 e0).1
      have e0' : wr (upd m a i x b) p y = .ok ((upd m a i x b).set p y) := wr_ok (by rw [upd_len]; exact hlt)
      refine bind_ok.2 ⟨_, e0', ?_⟩
      rw [update_eq_upd e0', upd_comm (fun ⟨u, v⟩ => hw (by rw [← u, ← v]; exact hf.1))]
      exact map_ok.2 ⟨(upd m1 a i x, c1), ih.frame _ _ _ _ _ _ hr hw e1, rfl⟩
  | fork n b k ihb ihk =>
    intro hf
    have hb := forN_framed (F := fun j => (b j).runC) n 0 0 fun j _ h2 => ihb j (hf.1 j (by omega))
    have hk := ihk hf.2
    refine ⟨?_, ?_, ?_⟩
    · intro m m' c h a
      obtain ⟨⟨w, c0⟩, e0, h⟩ := bind_ok.1 h
      obtain ⟨⟨m1, c1⟩, e1, e2⟩ := map_ok.1 h
      cases e2
      rw [hk.len _ _ _ e1 a]
      exact hb.len _ _ _ e0 a
    · intro m m' c h a i hw
      obtain ⟨⟨w, c0⟩, e0, h⟩ := bind_ok.1 h
      obtain ⟨⟨m1, c1⟩, e1, e2⟩ := map_ok.1 h
      cases e2
      rw [hk.keep _ _ _ e1 a i hw]
      exact hb.keep _ _ _ e0 a i hw
    · intro m m' c a i x hr hw h
      obtain ⟨⟨w, c0⟩, e0, h⟩ := bind_ok.1 h
      obtain ⟨⟨m1, c1⟩, e1, e2⟩ := map_ok.1 h
      cases e2
      refine bind_ok.2 ⟨(upd w a i x, c0), hb.frame _ _ _ _ _ _ hr hw e0, map_ok.2 ⟨(upd m1 a i x, c1), hk.frame _ _ _ _ _ _ hr hw e1, rfl⟩⟩

/-- shape of a step: no change, or one cell in the footprint; and it can be taken in any memory agreeing on what is loaded -/
theorem step_shape {R Wr : ι → Nat → Prop} {c c' : Mem ι α × Th ι α} (hs : Step c c') : c.2.Fp R Wr →
    c'.2.Fp R Wr ∧
    ((c'.1 = c.1 ∧ ∀ m1 : Mem ι α, (∀ a, (m1 a).length = (c.1 a).length) → (∀ a i, R a i → rd (m1 a) i = rd (c.1 a) i) →
        Step (m1, c.2) (m1, c'.2)) ∨
     (∃ a i x, Wr a i ∧ c'.1 = upd c.1 a i x ∧ ∀ m1 : Mem ι α, (∀ a, (m1 a).length = (c.1 a).length) → Step (m1, c.2) (upd m1 a i x, c'.2))) := by
  induction hs with
  | size =>
    intro hf
    refine ⟨hf _, Or.inl ⟨rfl, fun m1 hl _ => ?_⟩⟩
    rw [← hl]
    exact Step.size
  | load h =>
    intro hf
    exact ⟨hf.2 _, Or.inl ⟨rfl, fun m1 _ ha => Step.load (by rw [ha _ _ hf.1]; exact h)⟩⟩
  | @store m a i x k w h =>
    intro hf
    refine ⟨hf.2, Or.inr ⟨a, i, x, hf.1, update_eq_upd h, fun m1 hl => ?_⟩⟩
    have hlt := (wr_ok_iff.1 h).1
    have e : wr (m1 a) i x = .ok ((m1 a).set i x) := wr_ok (by rw [hl]; exact hlt)
    exact Step.store e
  | @child m m' n b k j t' hj hs ih =>
    intro hf
    obtain ⟨hf', hc⟩ := ih (hf.1 j hj)
    refine ⟨⟨fun i hi => ?_, hf.2⟩, ?_⟩
    · by_cases e : i = j
      · subst e; rw [Function.update_self]; exact hf'
      · rw [Function.update_of_ne e]; exact hf.1 i hi
    · rcases hc with ⟨e, hs1⟩ | ⟨a, i, x, hw, e, hs1⟩
      · exact Or.inl ⟨e, fun m1 hl ha => Step.child hj (hs1 m1 hl ha)⟩
      · exact Or.inr ⟨a, i, x, hw, e, fun m1 hl => Step.child hj (hs1 m1 hl)⟩
  | join h =>
    intro hf
    exact ⟨hf.2, Or.inl ⟨rfl, fun m1 _ _ => Step.join h⟩⟩

theorem RF_step {c c' : Mem ι α × Th ι α} (hs : Step c c') : c.2.RF → c'.2.RF := by
  induction hs with
  | size => exact fun h => h _
  | load _ => exact fun h => h _
  | store _ => exact fun h => h
  | @child m m' n b k j t' hj hs ih =>
    rintro ⟨⟨R, Wr, hf, hd⟩, hb, hk⟩
    refine ⟨⟨R, Wr, fun i hi => ?_, hd⟩, fun i hi => ?_, hk⟩
    · by_cases e : i = j
      · subst e; rw [Function.update_self]; exact (step_shape hs (hf i hi)).1
      · rw [Function.update_of_ne e]; exact hf i hi
    · by_cases e : i = j
      · subst e; rw [Function.update_self]; exact ih (hb i hi)
      · rw [Function.update_of_ne e]; exact hb i hi
  | join _ => exact fun h => h.2.2

/-- the children's part of a counted run -/
def kids (b : Nat → Th ι α) (n lo : Nat) (s : Mem ι α × Nat) : Exec (Mem ι α × Nat) :=
  forN n lo s fun j s => ((b j).runC s.1).map fun r => (r.1, s.2 + r.2)

theorem kids_succ {b : Nat → Th ι α} {n lo c0 c : Nat} {m m' : Mem ι α} : kids b (n + 1) lo (m, c0) = .ok (m', c) ↔
    ∃ m1 c1, (b lo).runC m = .ok (m1, c1) ∧ kids b n (lo + 1) (m1, c0 + c1) = .ok (m', c) := by
  unfold kids
  rw [forN_succ_ok]
  constructor
  · rintro ⟨s', e1, e2⟩
    obtain ⟨⟨m1, c1⟩, e3, rfl⟩ := map_ok.1 e1
    exact ⟨m1, c1, e3, e2⟩
  · rintro ⟨m1, c1, e1, e2⟩
    exact ⟨(m1, c0 + c1), map_ok.2 ⟨_, e1, rfl⟩, e2⟩

theorem kids_congr {b b' : Nat → Th ι α} : ∀ (n lo : Nat) (s : Mem ι α × Nat), (∀ j, lo ≤ j → j < lo + n → b j = b' j) →
    kids b n lo s = kids b' n lo s := by
  intro n
  induction n with
  | zero => intro lo s _; rfl
  | succ n ih =>
    intro lo s h
    unfold kids forN
    dsimp only
    rw [h lo (by omega) (by omega)]
    cases hh : (b' lo).runC s.1 with
    | error e => simp [Except.map]
    | ok r =>
      simp only [Except.map]
      exact ih _ _ fun j h1 h2 => h j (by omega) (by omega)

theorem kids_count {b : Nat → Th ι α} : ∀ (n lo : Nat) (m m' : Mem ι α) (c0 c d : Nat), kids b n lo (m, c0) = .ok (m', c) →
    kids b n lo (m, c0 + d) = .ok (m', c + d) := by
  intro n
  induction n with
  | zero =>
    intro lo m m' c0 c d h
    simp only [kids, forN, Except.ok.injEq, Prod.mk.injEq] at h ⊢
    exact ⟨h.1, by omega⟩
  | succ n ih =>
    intro lo m m' c0 c d h
    obtain ⟨m1, c1, e1, e2⟩ := kids_succ.1 h
    refine kids_succ.2 ⟨m1, c1, e1, ?_⟩
    have := ih _ _ _ _ _ d e2
    rw [show c0 + d + c1 = c0 + c1 + d by omega]
    exact this

/-- a step of child `j` commutes to the front of the sequential order -/
theorem kids_step {R Wr : Nat → ι → Nat → Prop} {b : Nat → Th ι α} {j N : Nat} {t' : Th ι α}
    (hf : ∀ i, i < N → (b i).Fp (R i) (Wr i))
    (hd : ∀ i j, i < N → j < N → i ≠ j → ∀ a p, Wr i a p → ¬ R j a p ∧ ¬ Wr j a p)
    (ihc : ∀ (m m' ms : Mem ι α) (c : Nat), Step (m, b j) (m', t') → (b j).runC m = .ok (ms, c) →
      ∃ c', c = c' + 1 ∧ t'.runC m' = .ok (ms, c')) :
    ∀ (n lo : Nat) (m m' ms : Mem ι α) (c0 c : Nat), lo + n ≤ N → lo ≤ j → j < lo + n → Step (m, b j) (m', t') →
      kids b n lo (m, c0) = .ok (ms, c) → ∃ c', c = c' + 1 ∧ kids (Function.update b j t') n lo (m', c0) = .ok (ms, c') := by
  intro n
  induction n with
  | zero => intro lo m m' ms c0 c _ h1 h2; omega
  | succ n ih =>
    intro lo m m' ms c0 c hN h1 h2 hs hk
    obtain ⟨m1, c1, e1, e2⟩ := kids_succ.1 hk
    by_cases e : j = lo
    · obtain ⟨c', ec, er⟩ := ihc m m' m1 c1 hs (by rw [e]; exact e1)
      subst ec
      refine ⟨c - 1, ?_, kids_succ.2 ⟨m1, c', by rw [e, Function.update_self]; exact er, ?_⟩⟩
      · -- count is at least 1
        have key : ∀ (n lo : Nat) (m m' : Mem ι α) (c0 c : Nat), kids b n lo (m, c0) = .ok (m', c) → c0 ≤ c := by
          intro n
          induction n with
          | zero =>
            intro lo m m' c0 c h
            simp only [kids, forN, Except.ok.injEq, Prod.mk.injEq] at h
            omega
          | succ n ih =>
            intro lo m m' c0 c h
            obtain ⟨m1, c1, _, e2⟩ := kids_succ.1 h
            have := ih _ _ _ _ _ e2
            omega
        have := key _ _ _ _ _ _ e2
        omega
      · rw [kids_congr (b' := b) n (lo + 1) _ (fun i hi _ => Function.update_of_ne (by omega) _ _)]
        -- shift the count
        have key : ∀ (n lo : Nat) (m m' : Mem ι α) (c0 c : Nat), kids b n lo (m, c0 + 1) = .ok (m', c) →
            kids b n lo (m, c0) = .ok (m', c - 1) := by
          intro n
          induction n with
          | zero =>
            intro lo m m' c0 c h
            simp only [kids, forN, Except.ok.injEq, Prod.mk.injEq] at h ⊢
            exact ⟨h.1, by omega⟩
          | succ n ih =>
            intro lo m m' c0 c h
            obtain ⟨m1, c1, e1, e2⟩ := kids_succ.1 h
            refine kids_succ.2 ⟨m1, c1, e1, ih _ _ _ _ _ ?_⟩
            rw [show c0 + c1 + 1 = c0 + 1 + c1 by omega]
            exact e2
        exact key _ _ _ _ _ _ (by rw [show c0 + c' + 1 = c0 + (c' + 1) by omega]; exact e2)
    · have hlo : lo < N := by omega
      have hjN : j < N := by omega
      have fr := runC_framed (b lo) (hf lo hlo)
      have hsh := (step_shape hs (hf j hjN)).2
      have hl1 := fr.len _ _ _ e1
      -- the step taken after `b lo` has run
      have hcase : ∃ m1', Step (m1, b j) (m1', t') ∧ (b lo).runC m' = .ok (m1', c1) := by
        rcases hsh with ⟨em, hst⟩ | ⟨a, i, x, hw, em, hst⟩
        · refine ⟨m1, hst m1 hl1 (fun a i hr => fr.keep _ _ _ e1 a i fun hw => (hd lo j hlo hjN (Ne.symm e) a i hw).1 hr), ?_⟩
          dsimp only at em
          rw [em]; exact e1
        · have hdj := hd j lo hjN hlo e a i hw
          refine ⟨upd m1 a i x, hst m1 hl1, ?_⟩
          dsimp only at em
          rw [em]
          exact fr.frame _ _ _ _ _ _ hdj.1 hdj.2 e1
      obtain ⟨m1', hst', hrun'⟩ := hcase
      obtain ⟨c', ec, er⟩ := ih (lo + 1) m1 m1' ms (c0 + c1) c (by omega) (by omega) (by omega) hst' e2
      refine ⟨c', ec, kids_succ.2 ⟨m1', c1, ?_, er⟩⟩
      rw [Function.update_of_ne (fun h => e h.symm)]
      exact hrun'

theorem runC_fork {n : Nat} {b : Nat → Th ι α} {k : Th ι α} {m ms : Mem ι α} {c : Nat} :
    (Th.fork n b k).runC m = .ok (ms, c) ↔ ∃ m1 c0 c1, kids b n 0 (m, 0) = .ok (m1, c0) ∧ k.runC m1 = .ok (ms, c1) ∧ c = c0 + c1 + 1 := by
  constructor
  · intro h
    obtain ⟨⟨w, c0⟩, e0, h⟩ := bind_ok.1 h
    obtain ⟨⟨m1, c1⟩, e1, e2⟩ := map_ok.1 h
    cases e2
    exact ⟨w, c0, c1, e0, e1, rfl⟩
  · rintro ⟨w, c0, c1, e0, e1, rfl⟩
    exact bind_ok.2 ⟨(w, c0), e0, map_ok.2 ⟨(ms, c1), e1, rfl⟩⟩

theorem kids_done {b : Nat → Th ι α} : ∀ (n lo : Nat) (s : Mem ι α × Nat), (∀ j, lo ≤ j → j < lo + n → b j = .done) →
    kids b n lo s = .ok s := by
  intro n
  induction n with
  | zero => intro lo s _; rfl
  | succ n ih =>
    intro lo s h
    obtain ⟨m, c⟩ := s
    exact kids_succ.2 ⟨m, 0, by rw [h lo (by omega) (by omega)]; rfl, ih _ _ fun j h1 h2 => h j (by omega) (by omega)⟩

/-- every step keeps the sequential result and uses up exactly one counted step -/
theorem step_runC {c c' : Mem ι α × Th ι α} (hs : Step c c') : c.2.RF → ∀ ms N, c.2.runC c.1 = .ok (ms, N) →
    ∃ N', N = N' + 1 ∧ c'.2.runC c'.1 = .ok (ms, N') := by
  suffices H : ∀ (t : Th ι α), t.RF → ∀ (m m' : Mem ι α) (t' : Th ι α) (ms : Mem ι α) (N : Nat), Step (m, t) (m', t') → t.runC m = .ok (ms, N) →
      ∃ N', N = N' + 1 ∧ t'.runC m' = .ok (ms, N') from
    fun hr ms N h => H c.2 hr c.1 c'.1 c'.2 ms N hs h
  intro t
  induction t with
  | done => intro _ m m' t' ms N hs; cases hs
  | fail e => intro _ m m' t' ms N hs; cases hs
  | size a k ih =>
    intro _ m m' t' ms N hs h
    cases hs
    obtain ⟨⟨m1, c1⟩, e1, e2⟩ := map_ok.1 h
    cases e2
    exact ⟨c1, rfl, e1⟩
  | load a i k ih =>
    intro _ m m' t' ms N hs h
    cases hs with
    | load hx =>
      obtain ⟨y, e0, h⟩ := bind_ok.1 h
      rw [hx] at e0
      cases e0
      obtain ⟨⟨m1, c1⟩, e1, e2⟩ := map_ok.1 h
      cases e2
      exact ⟨c1, rfl, e1⟩
  | store a i x k ih =>
    intro _ m m' t' ms N hs h
    cases hs with
    | store hx =>
      obtain ⟨y, e0, h⟩ := bind_ok.1 h
      rw [hx] at e0
      cases e0
      obtain ⟨⟨m1, c1⟩, e1, e2⟩ := map_ok.1 h
      cases e2
      exact ⟨c1, rfl, e1⟩
  | fork n b k ihb ihk =>
    rintro ⟨⟨R, Wr, hf, hd⟩, hb, hk⟩ m m' t' ms N hs h
    obtain ⟨m1, c0, c1, e0, e1, rfl⟩ := runC_fork.1 h
    cases hs with
    | child hj hs =>
      rename_i j t''
      obtain ⟨c', rfl, er⟩ := kids_step hf hd (fun m m' ms c hs h => ihb j (hb j hj) m m' _ ms c hs h) n 0 m m' m1 0 c0
        (by omega) (by omega) (by omega) hs e0
      exact ⟨c' + c1 + 1, by omega, runC_fork.2 ⟨m1, c', c1, er, e1, rfl⟩⟩
    | join hj =>
      rw [kids_done n 0 _ fun j _ h2 => hj j (by omega)] at e0
      cases e0
      exact ⟨c1, by omega, e1⟩

theorem trichotomy (m : Mem ι α) (t : Th ι α) : t = .done ∨ Faulty m t ∨ ∃ c', Step (m, t) c' := by
  induction t with
  | done => exact Or.inl rfl
  | fail e => exact Or.inr (Or.inl .fail)
  | size a k _ => exact Or.inr (Or.inr ⟨_, .size⟩)
  | load a i k _ =>
    cases h : rd (m a) i with
    | error e => exact Or.inr (Or.inl (.load h))
    | ok x => exact Or.inr (Or.inr ⟨_, .load h⟩)
  | store a i x k _ =>
    cases h : wr (m a) i x with
    | error e => exact Or.inr (Or.inl (.store h))
    | ok x => exact Or.inr (Or.inr ⟨_, .store h⟩)
  | fork n b k ihb _ =>
    by_cases hd : ∀ j, j < n → b j = .done
    · exact Or.inr (Or.inr ⟨_, .join hd⟩)
    · simp only [not_forall] at hd
      obtain ⟨j, hj, hne⟩ := hd
      rcases ihb j with h | h | ⟨c', h⟩
      · exact absurd h hne
      · exact Or.inr (Or.inl (.child hj h))
      · obtain ⟨m', t'⟩ := c'
        exact Or.inr (Or.inr ⟨_, .child hj h⟩)

theorem rd_err_len {v : List α} {i : Nat} {e : Err} : rd v i = .error e → v.length ≤ i := by
  intro h
  by_contra hn
  unfold rd at h
  rw [List.getElem?_eq_getElem (by omega)] at h
  simp at h

theorem wr_err_len {v : List α} {i : Nat} {x : α} {e : Err} : wr v i x = .error e → v.length ≤ i := by
  intro h
  by_contra hn
  rw [wr_ok (by omega)] at h
  simp at h

theorem faulty_len {m m1 : Mem ι α} {t : Th ι α} (h : Faulty m t) (hl : ∀ a, (m1 a).length = (m a).length) : Faulty m1 t := by
  induction h with
  | fail => exact .fail
  | @load a i k e h => exact .load (rd_ub (by rw [hl]; exact rd_err_len h))
  | @store a i x k e h => exact .store (wr_ub (by rw [hl]; exact wr_err_len h))
  | child hj _ ih => exact .child hj ih

theorem runC_len (t : Th ι α) {m m' : Mem ι α} {c : Nat} (h : t.runC m = .ok (m', c)) (a : ι) : (m' a).length = (m a).length := by
  have hfp : t.Fp (fun _ _ => True) (fun _ _ => True) := by
    clear h
    induction t with
    | done => trivial
    | fail e => trivial
    | size a k ih => exact ih
    | load a i k ih => exact ⟨trivial, ih⟩
    | store a i x k ih => exact ⟨trivial, ih⟩
    | fork n b k ihb ihk => exact ⟨fun j _ => ihb j, ihk⟩
  exact (runC_framed t hfp).len _ _ _ h a

theorem not_faulty {t : Th ι α} : ∀ {m ms : Mem ι α} {N : Nat}, t.runC m = .ok (ms, N) → ¬ Faulty m t := by
  induction t with
  | done => intro m ms N _ hf; cases hf
  | fail e => intro m ms N h; simp [runC] at h
  | size a k ih => intro m ms N _ hf; cases hf
  | load a i k ih =>
    intro m ms N h hf
    cases hf with
    | load he =>
      obtain ⟨y, e0, h⟩ := bind_ok.1 h
      rw [he] at e0; cases e0
  | store a i x k ih =>
    intro m ms N h hf
    cases hf with
    | store he =>
      obtain ⟨y, e0, h⟩ := bind_ok.1 h
      rw [he] at e0; cases e0
  | fork n b k ihb ihk =>
    intro m ms N h hf
    obtain ⟨m1, c0, c1, e0, e1, rfl⟩ := runC_fork.1 h
    cases hf with
    | child hj hf =>
      rename_i j
      have key : ∀ (n lo : Nat) (m m1 : Mem ι α) (c0 c : Nat), kids b n lo (m, c0) = .ok (m1, c) → lo ≤ j → j < lo + n → Faulty m (b j) → False := by
        intro n
        induction n with
        | zero => intro lo m m1 c0 c _ h1 h2; omega
        | succ n ih =>
          intro lo m m1 c0 c hk h1 h2 hf
          obtain ⟨m2, c2, g1, g2⟩ := kids_succ.1 hk
          by_cases e : j = lo
          · subst e
            exact ihb j g1 hf
          · exact ih _ _ _ _ _ g2 (by omega) (by omega) (faulty_len hf (runC_len _ g1))
      exact key n 0 m m1 0 c0 e0 (by omega) (by omega) hf

theorem next_fp {R Wr : ι → Nat → Prop} {t : Th ι α} {a : ι} {i : Nat} {w : Bool} (h : Next t a i w) : t.Fp R Wr →
    (w = true → Wr a i) ∧ (w = false → R a i) := by
  induction h with
  | load => intro hf; exact ⟨by simp, fun _ => hf.1⟩
  | store => intro hf; exact ⟨fun _ => hf.1, by simp⟩
  | child hj _ ih => intro hf; exact ih (hf.1 _ hj)

theorem not_race {t : Th ι α} (h : t.RF) : ¬ Race t := by
  intro hr
  induction hr with
  | @here n b k i j a p w w' hi hj hij h1 h2 hw =>
    obtain ⟨⟨R, Wr, hf, hd⟩, _, _⟩ := h
    have f1 := next_fp h1 (hf i hi)
    have f2 := next_fp h2 (hf j hj)
    cases w with
    | true =>
      have d := hd i j hi hj hij a p (f1.1 rfl)
      cases w' with
      | true => exact d.2 (f2.1 rfl)
      | false => exact d.1 (f2.2 rfl)
    | false =>
      cases w' with
      | true =>
        have d := hd j i hj hi (Ne.symm hij) a p (f2.1 rfl)
        exact d.1 (f1.2 rfl)
      | false => simp at hw
  | child hj _ ih => exact ih (h.2.1 _ hj)

/-- the counted run is the run -/
theorem run_of_runC (t : Th ι α) : ∀ m : Mem ι α, t.run m = (t.runC m).map Prod.fst := by
  induction t with
  | done => intro m; rfl
  | fail e => intro m; rfl
  | size a k ih =>
    intro m
    simp only [run, runC, ih]
    cases (k (m a).length).runC m <;> rfl
  | load a i k ih =>
    intro m
    simp only [run, runC]
    cases rd (m a) i with
    | error e => rfl
    | ok x =>
      simp only [Except.bind, ih]
      cases (k x).runC m <;> rfl
  | store a i x k ih =>
    intro m
    simp only [run, runC]
    cases wr (m a) i x with
    | error e => rfl
    | ok w =>
      simp only [Except.bind, ih]
      cases k.runC _ <;> rfl
  | fork n b k ihb ihk =>
    intro m
    simp only [run, runC]
    have key : ∀ (n lo c0 : Nat) (m : Mem ι α), forN n lo m (fun j m => (b j).run m) = (kids b n lo (m, c0)).map Prod.fst := by
      intro n
      induction n with
      | zero => intro lo c0 m; rfl
      | succ n ih =>
        intro lo c0 m
        unfold kids forN
        dsimp only
        rw [ihb]
        cases (b lo).runC m with
        | error e => rfl
        | ok r =>
          simp only [Except.map]
          exact ih _ _ _
    have h0 := key n 0 0 m
    unfold forRange
    rw [show n - 0 = n from rfl, h0]
    change Except.bind (Except.map Prod.fst (kids b n 0 (m, 0))) _ = Except.map Prod.fst (Except.bind (kids b n 0 (m, 0)) _)
    cases kids b n 0 (m, 0) with
    | error e => rfl
    | ok r =>
      simp only [Except.map, Except.bind, ihk]
      cases k.runC r.1 <;> rfl

/-- **The scheduling theorem.**  A program whose concurrent iterations have separate footprints and which runs to `mf` with the pragmas
ignored: there is an `N` such that every interleaving, after any number `c` of steps, has `c ≤ N`, no faulty access and no race ahead, is not
stuck, and is finished exactly when `c = N`, with memory `mf`. -/
theorem schedule {t : Th ι α} {m mf : Mem ι α} (hr : t.RF) (h : t.run m = .ok mf) : ∃ N, ∀ c m' t', Steps c (m, t) (m', t') →
    c ≤ N ∧ ¬ Faulty m' t' ∧ ¬ Race t' ∧ (t' ≠ .done → ∃ c', Step (m', t') c') ∧ (t' = .done ↔ c = N) ∧ (t' = .done → m' = mf) := by
  rw [run_of_runC] at h
  obtain ⟨⟨m2, N⟩, e1, e2⟩ := map_ok.1 h
  dsimp only at e2
  subst e2
  refine ⟨N, ?_⟩
  have key : ∀ c (s s' : Mem ι α × Th ι α), Steps c s s' → s.2.RF → ∀ N, s.2.runC s.1 = .ok (m2, N) →
      s'.2.RF ∧ ∃ N', N = N' + c ∧ s'.2.runC s'.1 = .ok (m2, N') := by
    intro c s s' hs
    induction hs with
    | refl => intro hr N h; exact ⟨hr, N, rfl, h⟩
    | tail _ hst ih =>
      intro hr N h
      obtain ⟨hr', N', rfl, h'⟩ := ih hr N h
      obtain ⟨N'', rfl, h''⟩ := step_runC hst hr' _ _ h'
      exact ⟨RF_step hst hr', N'', by omega, h''⟩
  intro c m' t' hs
  obtain ⟨hr', N', rfl, h'⟩ := key c _ _ hs hr N e1
  dsimp only at hr' h'
  have nf := not_faulty h'
  have nr : t' ≠ .done → ∃ c', Step (m', t') c' := fun hne => by
    rcases trichotomy m' t' with e | e | e
    · exact absurd e hne
    · exact absurd e nf
    · exact e
  refine ⟨by omega, nf, not_race hr', nr, ⟨?_, ?_⟩, ?_⟩
  · rintro rfl
    simp only [runC, Except.ok.injEq, Prod.mk.injEq] at h'
    omega
  · intro hc
    have hN : N' = 0 := by omega
    subst hN
    by_contra hne
    obtain ⟨c', hst⟩ := nr hne
    obtain ⟨N'', e, _⟩ := step_runC hst hr' _ _ h'
    omega
  · rintro rfl
    simp only [runC, Except.ok.injEq, Prod.mk.injEq] at h'
    exact h'.1

end SFK
