import Verif.Lemmas.Omp
import Verif.Lemmas.Eom
import Verif.Model.OmpLoops

set_option linter.unusedSectionVars false

namespace SFK
open Scalar

section
variable {ι α β γ σ : Type} [DecidableEq ι]

/-! ### footprints and race freedom of thread code -/

def FpM (R Wr : ι → Nat → Prop) (p : ThM ι α β) : Prop := ∀ k, (∀ b, (k b).Fp R Wr) → (p k).Fp R Wr
def RFM (p : ThM ι α β) : Prop := ∀ k, (∀ b, (k b).RF) → (p k).RF

variable {R Wr : ι → Nat → Prop}

theorem FpM.pure (b : β) : FpM R Wr (Pure.pure b : ThM ι α β) := fun _ h => h b
theorem FpM.bind {p : ThM ι α β} {q : β → ThM ι α γ} (hp : FpM R Wr p) (hq : ∀ b, FpM R Wr (q b)) : FpM R Wr (p >>= q) :=
  fun k h => hp _ fun b => hq b k h
theorem FpM.size (a : ι) : FpM R Wr (ThM.size a : ThM ι α Nat) := fun _ h n => h n
theorem FpM.load {a : ι} {i : Nat} (h : R a i) : FpM R Wr (ThM.load a i : ThM ι α α) := fun _ hk => ⟨h, hk⟩
theorem FpM.store {a : ι} {i : Nat} {x : α} (h : Wr a i) : FpM R Wr (ThM.store a i x) := fun _ hk => ⟨h, hk ()⟩
theorem FpM.lift (e : Exec β) : FpM R Wr (ThM.lift e : ThM ι α β) := by
  intro k h
  cases e with
  | ok x => exact h x
  | error e => trivial
theorem FpM.forN {b : Nat → σ → ThM ι α σ} : ∀ (n lo : Nat) (s : σ), (∀ i, lo ≤ i → i < lo + n → ∀ s, FpM R Wr (b i s)) →
    FpM R Wr (ThM.forN n lo s b) := by
  intro n
  induction n with
  | zero => intro lo s _ k h; exact h s
  | succ n ih =>
    intro lo s hb k h
    exact hb lo (by omega) (by omega) s _ fun s' => ih (lo + 1) s' (fun i h1 h2 => hb i (by omega) (by omega)) k h
theorem FpM.forT {lo hi : Nat} {s : σ} {b : Nat → σ → ThM ι α σ} (hb : ∀ i, lo ≤ i → i < hi → ∀ s, FpM R Wr (b i s)) :
    FpM R Wr (ThM.forT lo hi s b) := FpM.forN _ _ _ fun i h1 h2 => hb i h1 (by omega)
theorem FpM.parFor {n : Nat} {body : Nat → ThM ι α Unit} (hb : ∀ j, j < n → FpM R Wr (body j)) : FpM R Wr (ThM.parFor n body) :=
  fun _ h => ⟨fun j hj => hb j hj _ fun _ => trivial, h ()⟩
theorem FpM.mono {R' Wr' : ι → Nat → Prop} {p : ThM ι α Unit} (h : FpM R Wr p) (h1 : ∀ a i, R a i → R' a i) (h2 : ∀ a i, Wr a i → Wr' a i) :
    (p fun _ => .done).Fp R' Wr' := by
  have := h (fun _ => .done) fun _ => trivial
  clear h
  revert this
  generalize (p fun _ => .done) = t
  induction t with
  | done => exact fun _ => trivial
  | fail e => exact fun _ => trivial
  | size a k ih => exact fun h n => ih n (h n)
  | load a i k ih => exact fun h => ⟨h1 _ _ h.1, fun x => ih x (h.2 x)⟩
  | store a i x k ih => exact fun h => ⟨h2 _ _ h.1, ih h.2⟩
  | fork n b k ihb ihk => exact fun h => ⟨fun j hj => ihb j (h.1 j hj), ihk h.2⟩

theorem RFM.pure (b : β) : RFM (Pure.pure b : ThM ι α β) := fun _ h => h b
theorem RFM.bind {p : ThM ι α β} {q : β → ThM ι α γ} (hp : RFM p) (hq : ∀ b, RFM (q b)) : RFM (p >>= q) :=
  fun k h => hp _ fun b => hq b k h
theorem RFM.size (a : ι) : RFM (ThM.size a : ThM ι α Nat) := fun _ h n => h n
theorem RFM.load (a : ι) (i : Nat) : RFM (ThM.load a i : ThM ι α α) := fun _ hk => hk
theorem RFM.store (a : ι) (i : Nat) (x : α) : RFM (ThM.store a i x) := fun _ hk => hk ()
theorem RFM.lift (e : Exec β) : RFM (ThM.lift e : ThM ι α β) := by
  intro k h
  cases e with
  | ok x => exact h x
  | error e => trivial
theorem RFM.forN {b : Nat → σ → ThM ι α σ} : ∀ (n lo : Nat) (s : σ), (∀ i s, RFM (b i s)) → RFM (ThM.forN n lo s b) := by
  intro n
  induction n with
  | zero => intro lo s _ k h; exact h s
  | succ n ih => intro lo s hb k h; exact hb lo s _ fun s' => ih (lo + 1) s' hb k h
theorem RFM.forT {lo hi : Nat} {s : σ} {b : Nat → σ → ThM ι α σ} (hb : ∀ i s, RFM (b i s)) : RFM (ThM.forT lo hi s b) :=
  RFM.forN _ _ _ hb
theorem RFM.parFor {n : Nat} {body : Nat → ThM ι α Unit} (R Wr : Nat → ι → Nat → Prop) (hb : ∀ j, j < n → RFM (body j))
    (hf : ∀ j, j < n → FpM (R j) (Wr j) (body j))
    (hd : ∀ i j, i < n → j < n → i ≠ j → ∀ a p, Wr i a p → ¬ R j a p ∧ ¬ Wr j a p) : RFM (ThM.parFor n body) :=
  fun _ h => ⟨⟨R, Wr, fun j hj => hf j hj _ fun _ => trivial, hd⟩, fun j hj => hb j hj _ fun _ => trivial, h ()⟩

/-! ### simulation: thread code run alone computes the sequential model -/

/-- reads: the value is `G m (m a)` and memory is unchanged -/
def SimR (a : ι) (p : ThM ι α β) (G : Mem ι α → List α → Exec β) : Prop :=
  ∀ k m, (p k).run m = (G m (m a)).bind fun b => (k b).run m

/-- updates the vector `a` only -/
def SimW (a : ι) (p : ThM ι α Unit) (F : Mem ι α → List α → Exec (List α)) : Prop :=
  ∀ k m, (p k).run m = (F m (m a)).bind fun w => (k ()).run (Function.update m a w)

theorem SimR.size_other (a b : ι) (_ : b ≠ a) : SimR a (ThM.size b : ThM ι α Nat) (fun m _ => .ok (m b).length) := fun _ _ => rfl
theorem SimR.size_self (a : ι) : SimR a (ThM.size a : ThM ι α Nat) (fun _ v => .ok v.length) := fun _ _ => rfl
theorem SimR.load_other (a b : ι) (i : Nat) : SimR a (ThM.load b i : ThM ι α α) (fun m _ => rd (m b) i) := fun _ _ => rfl
theorem SimR.load_self (a : ι) (i : Nat) : SimR a (ThM.load a i : ThM ι α α) (fun _ v => rd v i) := fun _ _ => rfl
theorem SimR.lift (a : ι) (e : Exec β) : SimR a (ThM.lift e : ThM ι α β) (fun _ _ => e) := by
  intro k m
  cases e <;> rfl
theorem SimR.bind {a : ι} {p : ThM ι α β} {q : β → ThM ι α γ} {G : Mem ι α → List α → Exec β} {H : β → Mem ι α → List α → Exec γ} (hp : SimR a p G) (hq : ∀ b, SimR a (q b) (H b)) :
    SimR a (p >>= q) (fun m v => (G m v).bind fun b => H b m v) := by
  intro k m
  change (p fun b => q b k).run m = _
  rw [hp]
  dsimp only
  cases G m (m a) with
  | error e => rfl
  | ok b => exact hq b k m
theorem SimR.forN {a : ι} {b : Nat → σ → ThM ι α σ} {B : Nat → σ → Mem ι α → List α → Exec σ} (hb : ∀ i s, SimR a (b i s) (B i s)) :
    ∀ (n lo : Nat) (s : σ), SimR a (ThM.forN n lo s b) (fun m v => SFK.forN n lo s fun i s => B i s m v) := by
  intro n
  induction n with
  | zero => intro lo s k m; rfl
  | succ n ih =>
    intro lo s k m
    change (b lo s fun s' => ThM.forN n (lo + 1) s' b k).run m = _
    rw [hb lo s]
    dsimp only [SFK.forN]
    cases B lo s m (m a) with
    | error e => rfl
    | ok s' => exact ih (lo + 1) s' k m
theorem SimR.forT {a : ι} {lo hi : Nat} {s : σ} {b : Nat → σ → ThM ι α σ} {B : Nat → σ → Mem ι α → List α → Exec σ}
    (hb : ∀ i s, SimR a (b i s) (B i s)) : SimR a (ThM.forT lo hi s b) (fun m v => forRange lo hi s fun i s => B i s m v) :=
  SimR.forN hb _ _ _

theorem SimW.store (a : ι) (i : Nat) (x : α) : SimW a (ThM.store a i x) (fun _ v => wr v i x) := fun _ _ => rfl
theorem SimW.bindR {a : ι} {p : ThM ι α β} {q : β → ThM ι α Unit} {G : Mem ι α → List α → Exec β} {H : β → Mem ι α → List α → Exec (List α)} (hp : SimR a p G) (hq : ∀ b, SimW a (q b) (H b)) :
    SimW a (p >>= q) (fun m v => (G m v).bind fun b => H b m v) := by
  intro k m
  change (p fun b => q b k).run m = _
  rw [hp]
  dsimp only
  cases G m (m a) with
  | error e => rfl
  | ok b => exact hq b k m
theorem SimW.bindW {a : ι} {p : ThM ι α Unit} {q : Unit → ThM ι α Unit} {F H : Mem ι α → List α → Exec (List α)} (hp : SimW a p F) (hq : SimW a (q ()) H)
    (hi : ∀ m w v, H (Function.update m a w) v = H m v) :
    SimW a (p >>= q) (fun m v => (F m v).bind fun w => H m w) := by
  intro k m
  change (p fun b => q b k).run m = _
  rw [hp]
  dsimp only
  cases F m (m a) with
  | error e => rfl
  | ok w =>
    dsimp only [Except.bind]
    rw [hq, hi, Function.update_self]
    dsimp only [Except.bind]
    congr 1
    funext w'
    rw [Function.update_idem]
theorem SimW.forN {a : ι} {b : Nat → ThM ι α Unit} {B : Nat → Mem ι α → List α → Exec (List α)} (hb : ∀ i, SimW a (b i) (B i))
    (hi : ∀ i m w v, B i (Function.update m a w) v = B i m v) :
    ∀ (n lo : Nat), SimW a (ThM.forN n lo () fun i _ => b i) (fun m v => SFK.forN n lo v fun i v => B i m v) := by
  intro n
  induction n with
  | zero =>
    intro lo k m
    dsimp only [SFK.forN, Except.bind]
    rw [Function.update_eq_self]
    rfl
  | succ n ih =>
    intro lo k m
    change (b lo fun s' => ThM.forN n (lo + 1) s' (fun i _ => b i) k).run m = _
    rw [hb lo]
    dsimp only [SFK.forN]
    cases B lo m (m a) with
    | error e => rfl
    | ok w =>
      dsimp only [Except.bind]
      have := ih (lo + 1) k (Function.update m a w)
      rw [this, Function.update_self]
      simp only [hi]
      congr 1
      funext w'
      rw [Function.update_idem]
theorem SimW.forT {a : ι} {lo hi : Nat} {b : Nat → ThM ι α Unit} {B : Nat → Mem ι α → List α → Exec (List α)}
    (hb : ∀ i, SimW a (b i) (B i)) (hi' : ∀ i m w v, B i (Function.update m a w) v = B i m v) :
    SimW a (ThM.forT lo hi () fun i _ => b i) (fun m v => forRange lo hi v fun i v => B i m v) := SimW.forN hb hi' _ _
theorem forN_inv {s s' : σ} {b : Nat → σ → Exec σ} {b' : Nat → σ → Exec σ} : ∀ (n lo : Nat), (∀ i s, b i s = b' i s) →
    SFK.forN n lo s b = SFK.forN n lo s b' := by
  intro n lo h
  have : b = b' := by funext i s; exact h i s
  rw [this]
theorem SimW.parFor {a : ι} {n : Nat} {b : Nat → ThM ι α Unit} {B : Nat → Mem ι α → List α → Exec (List α)}
    (hb : ∀ i, SimW a (b i) (B i)) (hi : ∀ i m w v, B i (Function.update m a w) v = B i m v) :
    SimW a (ThM.parFor n b) (fun m v => forRange 0 n v fun i v => B i m v) := by
  intro k m
  change (forRange 0 n m fun j m => (b j fun _ => .done).run m).bind (fun m => (k ()).run m) = _
  have key : ∀ (n lo : Nat) (m : Mem ι α), (SFK.forN n lo m fun j m => (b j fun _ => .done).run m) =
      (SFK.forN n lo (m a) fun i v => B i m v).map fun w => Function.update m a w := by
    intro n
    induction n with
    | zero =>
      intro lo m
      dsimp only [SFK.forN, Except.map]
      rw [Function.update_eq_self]
    | succ n ih =>
      intro lo m
      dsimp only [SFK.forN]
      rw [hb lo]
      cases B lo m (m a) with
      | error e => rfl
      | ok w =>
        dsimp only [Except.bind, Th.run]
        rw [ih, Function.update_self]
        simp only [hi]
        congr 1
        funext w'
        rw [Function.update_idem]
  unfold forRange
  rw [key]
  dsimp only
  cases SFK.forN (n - 0) 0 (m a) _ <;> rfl

theorem SimW.congr {a : ι} {p : ThM ι α Unit} {F F' : Mem ι α → List α → Exec (List α)} (h : SimW a p F) (he : ∀ m v, F m v = F' m v) :
    SimW a p F' := fun k m => by rw [h k m, he]
theorem SimR.congr {a : ι} {p : ThM ι α β} {F F' : Mem ι α → List α → Exec β} (h : SimR a p F) (he : ∀ m v, F m v = F' m v) :
    SimR a p F' := fun k m => by rw [h k m, he]

/-! ### rows -/
namespace Dims
variable {d : Dims}

theorem simR_get_row_R_other {a b : ι} (h : b ≠ a) (it ip : Nat) (out : List α) :
    SimR a (d.get_row_R_T it ip b out) (fun m _ => d.get_row_R it ip (m b) out) :=
  (SimR.bind (SimR.size_other a b h) fun _ => SimR.bind (SimR.lift a _) fun _ => SimR.bind (SimR.lift a _) fun _ =>
    SimR.forT fun _ _ => SimR.bind (SimR.load_other a b _) fun _ => SimR.lift a _)
theorem simR_get_row_R_self {a : ι} (it ip : Nat) (out : List α) :
    SimR a (d.get_row_R_T it ip a out) (fun _ v => d.get_row_R it ip v out) :=
  (SimR.bind (SimR.size_self a) fun _ => SimR.bind (SimR.lift a _) fun _ => SimR.bind (SimR.lift a _) fun _ =>
    SimR.forT fun _ _ => SimR.bind (SimR.load_self a _) fun _ => SimR.lift a _)
theorem simR_get_row_th_ph_other {a b : ι} (h : b ≠ a) (ix : Nat) (out : List α) :
    SimR a (d.get_row_th_ph_T ix b out) (fun m _ => d.get_row_th_ph ix (m b) out) :=
  (SimR.bind (SimR.size_other a b h) fun _ => SimR.bind (SimR.lift a _) fun _ => SimR.bind (SimR.lift a _) fun _ =>
    SimR.forT fun _ _ => SimR.forT fun _ _ => SimR.bind (SimR.load_other a b _) fun _ => SimR.lift a _)
theorem simR_get_row_th_ph_self {a : ι} (ix : Nat) (out : List α) :
    SimR a (d.get_row_th_ph_T ix a out) (fun _ v => d.get_row_th_ph ix v out) :=
  (SimR.bind (SimR.size_self a) fun _ => SimR.bind (SimR.lift a _) fun _ => SimR.bind (SimR.lift a _) fun _ =>
    SimR.forT fun _ _ => SimR.forT fun _ _ => SimR.bind (SimR.load_self a _) fun _ => SimR.lift a _)
theorem simR_get_row_n_self {a : ι} (il : Nat) (out : List α) :
    SimR a (d.get_row_n_T il a out) (fun _ v => d.get_row_n il v out) :=
  (SimR.bind (SimR.size_self a) fun _ => SimR.bind (SimR.lift a _) fun _ => SimR.bind (SimR.lift a _) fun _ =>
    SimR.forT fun _ _ => SimR.bind (SimR.load_self a _) fun _ => SimR.lift a _)
theorem simW_set_row_R {a : ι} (it ip : Nat) (inp : List α) :
    SimW a (d.set_row_R_T it ip inp a) (fun _ v => d.set_row_R it ip inp v) :=
  (SimW.bindR (SimR.lift a _) fun _ => SimW.bindR (SimR.size_self a) fun _ => SimW.bindR (SimR.lift a _) fun _ =>
    SimW.forT (fun _ => SimW.bindR (SimR.lift a _) fun _ => SimW.store a _ _) fun _ _ _ _ => rfl)
theorem simW_set_row_th_ph {a : ι} (ix : Nat) (inp : List α) :
    SimW a (d.set_row_th_ph_T ix inp a) (fun _ v => d.set_row_th_ph ix inp v) :=
  (SimW.bindR (SimR.lift a _) fun _ => SimW.bindR (SimR.size_self a) fun _ => SimW.bindR (SimR.lift a _) fun _ =>
    SimW.forT (fun _ => SimW.forT (fun _ => SimW.bindR (SimR.lift a _) fun _ => SimW.store a _ _) fun _ _ _ _ => rfl) fun _ _ _ _ => rfl)
theorem simW_set_row_l {a : ι} (ix : Nat) (inp : List α) :
    SimW a (d.set_row_l_T ix inp a) (fun _ v => d.set_row_l ix inp v) :=
  (SimW.bindR (SimR.lift a _) fun _ => SimW.bindR (SimR.size_self a) fun _ => SimW.bindR (SimR.lift a _) fun _ =>
    SimW.forT (fun _ => SimW.bindR (SimR.lift a _) fun _ => SimW.store a _ _) fun _ _ _ _ => rfl)
theorem simW_set_row_n {a : ι} (il : Nat) (inp : List α) :
    SimW a (d.set_row_n_T il inp a) (fun _ v => d.set_row_n il inp v) :=
  (SimW.bindR (SimR.lift a _) fun _ => SimW.bindR (SimR.size_self a) fun _ => SimW.bindR (SimR.lift a _) fun _ =>
    SimW.forT (fun _ => SimW.bindR (SimR.lift a _) fun _ => SimW.store a _ _) fun _ _ _ _ => rfl)

end Dims

namespace Grid
variable [Scalar α] {g : Grid α}

theorem simW_perShell {v dv : ι} (h : v ≠ dv) (op : Nat → List α → List α → Exec (List α)) :
    SimW dv (g.perShell_T op v dv) (fun m w => g.perShell op (m v) w) :=
  SimW.bindR (SimR.size_other dv v h) fun _ => SimW.bindR (SimR.lift dv _) fun _ => SimW.bindR (SimR.size_self dv) fun _ =>
    SimW.bindR (SimR.lift dv _) fun _ => SimW.parFor
      (fun _ => SimW.bindR (Dims.simR_get_row_th_ph_other h _ _) fun _ => SimW.bindR (SimR.lift dv _) fun _ => Dims.simW_set_row_th_ph _ _)
      fun _ _ _ _ => by simp only [Function.update_of_ne h]

theorem simW_perLine {v dv : ι} (h : v ≠ dv) (op : List α → Exec (List α)) :
    SimW dv (g.perLine_T op v dv) (fun m w => g.perLine op (m v) w) :=
  SimW.bindR (SimR.size_other dv v h) fun _ => SimW.bindR (SimR.lift dv _) fun _ => SimW.bindR (SimR.size_self dv) fun _ =>
    SimW.bindR (SimR.lift dv _) fun _ => SimW.parFor
      (fun _ => SimW.forT
        (fun _ => SimW.bindR (Dims.simR_get_row_R_other h _ _ _) fun _ => SimW.bindR (SimR.lift dv _) fun _ => Dims.simW_set_row_R _ _ _)
        fun _ _ _ _ => by simp only [Function.update_of_ne h])
      fun _ _ _ _ => by simp only [Function.update_of_ne h]

theorem simW_spectrum {v p : ι} (h : v ≠ p) (J : Junk (Cx α)) :
    SimW p (g.set_angular_power_spectrum_T J v p) (fun m w => g.set_angular_power_spectrum J (m v) w) :=
  SimW.bindR (SimR.size_other p v h) fun _ => SimW.bindR (SimR.lift p _) fun _ => SimW.bindR (SimR.size_self p) fun _ =>
    SimW.bindR (SimR.lift p _) fun _ => SimW.parFor
      (fun _ => SimW.bindR (Dims.simR_get_row_th_ph_other h _ _) fun _ => SimW.bindR (SimR.lift p _) fun _ => Dims.simW_set_row_l _ _)
      fun _ _ _ _ => by simp only [Function.update_of_ne h]

theorem simW_n_l_coef {v p : ι} (h : v ≠ p) (c : Cheb α) (J : Junk (Cx α)) :
    SimW p (g.set_n_l_coef_T c J v p) (fun m w => g.set_n_l_coef c J (m v) w) := by
  unfold set_n_l_coef_T set_n_l_coef
  refine SimW.bindR (SimR.size_other p v h) fun _ => SimW.bindR (SimR.lift p _) fun _ => SimW.bindR (SimR.size_self p) fun _ =>
    SimW.bindR (SimR.lift p _) fun _ => SimW.bindW (simW_spectrum h J) (H := fun _ w => forRange 0 g.d.nl w fun il p => do
      let interV ← g.d.get_row_n il p (List.replicate g.d.nx 0)
      let interV ← forRange 0 g.d.nx interV fun ix w => do
        let x ← rd w ix
        wr w ix (rt x)
      let interP ← c.to_ch interV (List.replicate g.d.nx 0)
      g.d.set_row_n il interP p) ?_ fun _ _ _ => rfl
  exact SimW.parFor
      (fun _ => SimW.bindR (Dims.simR_get_row_n_self _ _) fun _ => SimW.bindR (SimR.lift p _) fun _ => SimW.bindR (SimR.lift p _) fun _ =>
        Dims.simW_set_row_n _ _)
      fun _ _ _ _ => rfl

theorem _root_.SFK.SimW.pure (a : ι) : SimW a (Pure.pure () : ThM ι α Unit) (fun _ v => .ok v) := by
  intro k m
  dsimp only [Except.bind]
  rw [Function.update_eq_self]
  rfl

theorem simW_filter (v : ι) (J : Junk (Cx α)) : SimW v (g.filter_T J v) (fun _ w => g.filter J w) := by
  unfold filter_T filter
  refine SimW.bindR (SimR.size_self v) fun _ => SimW.bindR (SimR.lift v _) fun _ => SimW.bindW
    (F := fun _ w => g.filterShells J w) (H := fun _ w => g.filterLines w) ?_ ?_ fun _ _ _ => rfl
  · exact SimW.parFor (fun _ => SimW.bindR (Dims.simR_get_row_th_ph_self _ _) fun _ => SimW.bindR (SimR.lift v _) fun _ =>
      Dims.simW_set_row_th_ph _ _) fun _ _ _ _ => rfl
  · refine SimW.parFor (B := fun it _ w => forRange 0 g.d.nphi w fun ip v => do
      let inter ← g.d.get_row_R it ip v (List.replicate g.d.nx 0)
      let lwr ← rd inter 0
      let upr ← rd inter (usub g.d.nx 1)
      let v ← g.d.set_row_R it ip inter v
      let inter ← wr inter 0 lwr
      let _ ← wr inter (usub g.d.nx 1) upr
      .ok v) (fun it => SimW.forT (fun ip => ?_) fun _ _ _ _ => rfl) fun _ _ _ _ => rfl
    refine SimW.bindR (Dims.simR_get_row_R_self _ _ _) fun inter => SimW.bindR (SimR.lift v _) fun lwr =>
        SimW.bindR (SimR.lift v _) fun upr => SimW.bindW (Dims.simW_set_row_R _ _ _) (H := fun _ w => do
          let inter ← wr inter 0 lwr
          let _ ← wr inter (usub g.d.nx 1) upr
          .ok w) ?_ fun _ _ _ => rfl
    exact SimW.bindR (SimR.lift v _) fun _ => SimW.bindR (SimR.lift v _) fun _ => SimW.pure v

end Grid

theorem simW_shift {n np1 : ι} (h : np1 ≠ n) (size : Nat) : SimW n (shift_T size n np1 : ThM ι α Unit)
    (fun m w => forRange 0 size w fun i w => (rd (m np1) i).bind fun x => wr w i x) :=
  SimW.parFor (fun _ => SimW.bindR (SimR.load_other n np1 _) fun _ => SimW.store n _ _)
    fun _ _ _ _ => by simp only [Function.update_of_ne h]

/-! ### footprints of rows and of the parallel loops -/
namespace Dims
variable {d : Dims}

theorem fp_get_row_R {a : ι} {it ip : Nat} {out : List α} (h : ∀ ix, ix < d.nx → R a (d.indx_R_th_ph ix it ip)) :
    FpM R Wr (d.get_row_R_T it ip a out) :=
  FpM.bind (FpM.size a) fun _ => FpM.bind (FpM.lift _) fun _ => FpM.bind (FpM.lift _) fun _ =>
    FpM.forT fun ix _ hx _ => FpM.bind (FpM.load (h ix hx)) fun _ => FpM.lift _
theorem fp_get_row_th_ph {a : ι} {ix : Nat} {out : List α} (h : ∀ it ip, it < d.nlat → ip < d.nphi → R a (d.indx_R_th_ph ix it ip)) :
    FpM R Wr (d.get_row_th_ph_T ix a out) :=
  FpM.bind (FpM.size a) fun _ => FpM.bind (FpM.lift _) fun _ => FpM.bind (FpM.lift _) fun _ =>
    FpM.forT fun it _ ht _ => FpM.forT fun ip _ hp _ => FpM.bind (FpM.load (h it ip ht hp)) fun _ => FpM.lift _
theorem fp_get_row_n {a : ι} {il : Nat} {out : List α} (h : ∀ ix, ix < d.nx → R a (d.indx_r_l ix il)) :
    FpM R Wr (d.get_row_n_T il a out) :=
  FpM.bind (FpM.size a) fun _ => FpM.bind (FpM.lift _) fun _ => FpM.bind (FpM.lift _) fun _ =>
    FpM.forT fun ix _ hx _ => FpM.bind (FpM.load (h ix hx)) fun _ => FpM.lift _
theorem fp_set_row_R {a : ι} {it ip : Nat} {inp : List α} (h : ∀ ix, ix < d.nx → Wr a (d.indx_R_th_ph ix it ip)) :
    FpM R Wr (d.set_row_R_T it ip inp a) :=
  FpM.bind (FpM.lift _) fun _ => FpM.bind (FpM.size a) fun _ => FpM.bind (FpM.lift _) fun _ =>
    FpM.forT fun ix _ hx _ => FpM.bind (FpM.lift _) fun _ => FpM.store (h ix hx)
theorem fp_set_row_th_ph {a : ι} {ix : Nat} {inp : List α} (h : ∀ it ip, it < d.nlat → ip < d.nphi → Wr a (d.indx_R_th_ph ix it ip)) :
    FpM R Wr (d.set_row_th_ph_T ix inp a) :=
  FpM.bind (FpM.lift _) fun _ => FpM.bind (FpM.size a) fun _ => FpM.bind (FpM.lift _) fun _ =>
    FpM.forT fun it _ ht _ => FpM.forT fun ip _ hp _ => FpM.bind (FpM.lift _) fun _ => FpM.store (h it ip ht hp)
theorem fp_set_row_l {a : ι} {ix : Nat} {inp : List α} (h : ∀ il, il < d.nl → Wr a (d.indx_r_l ix il)) :
    FpM R Wr (d.set_row_l_T ix inp a) :=
  FpM.bind (FpM.lift _) fun _ => FpM.bind (FpM.size a) fun _ => FpM.bind (FpM.lift _) fun _ =>
    FpM.forT fun il _ hl _ => FpM.bind (FpM.lift _) fun _ => FpM.store (h il hl)
theorem fp_set_row_n {a : ι} {il : Nat} {inp : List α} (h : ∀ ix, ix < d.nx → Wr a (d.indx_r_l ix il)) :
    FpM R Wr (d.set_row_n_T il inp a) :=
  FpM.bind (FpM.lift _) fun _ => FpM.bind (FpM.size a) fun _ => FpM.bind (FpM.lift _) fun _ =>
    FpM.forT fun il _ hl _ => FpM.bind (FpM.lift _) fun _ => FpM.store (h il hl)

theorem rf_get_row_R (a : ι) (it ip : Nat) (out : List α) : RFM (d.get_row_R_T it ip a out) :=
  RFM.bind (RFM.size a) fun _ => RFM.bind (RFM.lift _) fun _ => RFM.bind (RFM.lift _) fun _ =>
    RFM.forT fun _ _ => RFM.bind (RFM.load _ _) fun _ => RFM.lift _
theorem rf_get_row_th_ph (a : ι) (ix : Nat) (out : List α) : RFM (d.get_row_th_ph_T ix a out) :=
  RFM.bind (RFM.size a) fun _ => RFM.bind (RFM.lift _) fun _ => RFM.bind (RFM.lift _) fun _ =>
    RFM.forT fun _ _ => RFM.forT fun _ _ => RFM.bind (RFM.load _ _) fun _ => RFM.lift _
theorem rf_get_row_n (a : ι) (il : Nat) (out : List α) : RFM (d.get_row_n_T il a out) :=
  RFM.bind (RFM.size a) fun _ => RFM.bind (RFM.lift _) fun _ => RFM.bind (RFM.lift _) fun _ =>
    RFM.forT fun _ _ => RFM.bind (RFM.load _ _) fun _ => RFM.lift _
theorem rf_set_row_R (a : ι) (it ip : Nat) (inp : List α) : RFM (d.set_row_R_T it ip inp a) :=
  RFM.bind (RFM.lift _) fun _ => RFM.bind (RFM.size a) fun _ => RFM.bind (RFM.lift _) fun _ =>
    RFM.forT fun _ _ => RFM.bind (RFM.lift _) fun _ => RFM.store _ _ _
theorem rf_set_row_th_ph (a : ι) (ix : Nat) (inp : List α) : RFM (d.set_row_th_ph_T ix inp a) :=
  RFM.bind (RFM.lift _) fun _ => RFM.bind (RFM.size a) fun _ => RFM.bind (RFM.lift _) fun _ =>
    RFM.forT fun _ _ => RFM.forT fun _ _ => RFM.bind (RFM.lift _) fun _ => RFM.store _ _ _
theorem rf_set_row_l (a : ι) (ix : Nat) (inp : List α) : RFM (d.set_row_l_T ix inp a) :=
  RFM.bind (RFM.lift _) fun _ => RFM.bind (RFM.size a) fun _ => RFM.bind (RFM.lift _) fun _ =>
    RFM.forT fun _ _ => RFM.bind (RFM.lift _) fun _ => RFM.store _ _ _
theorem rf_set_row_n (a : ι) (il : Nat) (inp : List α) : RFM (d.set_row_n_T il inp a) :=
  RFM.bind (RFM.lift _) fun _ => RFM.bind (RFM.size a) fun _ => RFM.bind (RFM.lift _) fun _ =>
    RFM.forT fun _ _ => RFM.bind (RFM.lift _) fun _ => RFM.store _ _ _

/-- the elements of shell `ix` -/
def InShell (d : Dims) (ix p : Nat) : Prop := ∃ it ip, it < d.nlat ∧ ip < d.nphi ∧ p = d.indx_R_th_ph ix it ip
/-- the elements of the lines of latitude `it` -/
def InLat (d : Dims) (it p : Nat) : Prop := ∃ ix ip, ix < d.nx ∧ ip < d.nphi ∧ p = d.indx_R_th_ph ix it ip
/-- row `ix` of a radius-harmonic table -/
def InRowL (d : Dims) (ix p : Nat) : Prop := ∃ il, il < d.nl ∧ p = d.indx_r_l ix il
/-- column `il` of a radius-harmonic table -/
def InColL (d : Dims) (il p : Nat) : Prop := ∃ ix, ix < d.nx ∧ p = d.indx_r_l ix il

theorem Ok.shell_disj (h : d.Ok) {i j p : Nat} (hi : i < d.nx) (hj : j < d.nx) (h1 : d.InShell i p) (h2 : d.InShell j p) : i = j := by
  obtain ⟨t, f, ht, hf, e⟩ := h1
  obtain ⟨t', f', ht', hf', e'⟩ := h2
  exact (h.idx3_inj ⟨hi, ht, hf⟩ ⟨hj, ht', hf'⟩ (e.symm.trans e')).1
theorem Ok.lat_disj (h : d.Ok) {i j p : Nat} (hi : i < d.nlat) (hj : j < d.nlat) (h1 : d.InLat i p) (h2 : d.InLat j p) : i = j := by
  obtain ⟨t, f, ht, hf, e⟩ := h1
  obtain ⟨t', f', ht', hf', e'⟩ := h2
  exact (h.idx3_inj ⟨ht, hi, hf⟩ ⟨ht', hj, hf'⟩ (e.symm.trans e')).2.1
theorem Ok.rl_inj (h : d.Ok) {ix il ix' il' : Nat} (hx : ix < d.nx) (hl : il < d.nl) (hx' : ix' < d.nx) (hl' : il' < d.nl)
    (e : d.indx_r_l ix il = d.indx_r_l ix' il') : ix = ix' ∧ il = il' := by
  rw [h.indx_rl hx hl, h.indx_rl hx' hl'] at e
  have e1 := div_mod_lemma (i := ix) hl
  have e2 := div_mod_lemma (i := ix') hl'
  rw [e] at e1
  exact ⟨e1.1.symm.trans e2.1, e1.2.symm.trans e2.2⟩
theorem Ok.rowl_disj (h : d.Ok) {i j p : Nat} (hi : i < d.nx) (hj : j < d.nx) (h1 : d.InRowL i p) (h2 : d.InRowL j p) : i = j := by
  obtain ⟨l, hl, e⟩ := h1
  obtain ⟨l', hl', e'⟩ := h2
  exact (h.rl_inj hi hl hj hl' (e.symm.trans e')).1
theorem Ok.coll_disj (h : d.Ok) {i j p : Nat} (hi : i < d.nl) (hj : j < d.nl) (h1 : d.InColL i p) (h2 : d.InColL j p) : i = j := by
  obtain ⟨l, hl, e⟩ := h1
  obtain ⟨l', hl', e'⟩ := h2
  exact (h.rl_inj hl hi hl' hj (e.symm.trans e')).2

end Dims

namespace Grid
variable [Scalar α] {g : Grid α}

theorem fp_perShell {op : Nat → List α → List α → Exec (List α)} {v dv : ι} (hr : ∀ i, R v i) (hw : ∀ i, Wr dv i) :
    FpM R Wr (g.perShell_T op v dv) :=
  FpM.bind (FpM.size _) fun _ => FpM.bind (FpM.lift _) fun _ => FpM.bind (FpM.size _) fun _ => FpM.bind (FpM.lift _) fun _ =>
    FpM.parFor fun _ _ => FpM.bind (Dims.fp_get_row_th_ph fun _ _ _ _ => hr _) fun _ => FpM.bind (FpM.lift _) fun _ =>
      Dims.fp_set_row_th_ph fun _ _ _ _ => hw _

theorem rf_perShell (h : g.d.Ok) {op : Nat → List α → List α → Exec (List α)} {v dv : ι} (hne : v ≠ dv) : RFM (g.perShell_T op v dv) :=
  RFM.bind (RFM.size _) fun _ => RFM.bind (RFM.lift _) fun _ => RFM.bind (RFM.size _) fun _ => RFM.bind (RFM.lift _) fun _ =>
    RFM.parFor (fun _ a _ => a = v) (fun ix a p => a = dv ∧ g.d.InShell ix p)
      (fun _ _ => RFM.bind (Dims.rf_get_row_th_ph _ _ _) fun _ => RFM.bind (RFM.lift _) fun _ => Dims.rf_set_row_th_ph _ _ _)
      (fun _ _ => FpM.bind (Dims.fp_get_row_th_ph fun _ _ _ _ => rfl) fun _ => FpM.bind (FpM.lift _) fun _ =>
        Dims.fp_set_row_th_ph fun it ip ht hp => ⟨rfl, it, ip, ht, hp, rfl⟩)
      (fun _ _ hi hj hij a _ hw => ⟨fun e => hne (e.symm.trans hw.1), fun hw' => hij (h.shell_disj hi hj hw.2 hw'.2)⟩)

theorem fp_perLine {op : List α → Exec (List α)} {v dv : ι} (hr : ∀ i, R v i) (hw : ∀ i, Wr dv i) :
    FpM R Wr (g.perLine_T op v dv) :=
  FpM.bind (FpM.size _) fun _ => FpM.bind (FpM.lift _) fun _ => FpM.bind (FpM.size _) fun _ => FpM.bind (FpM.lift _) fun _ =>
    FpM.parFor fun _ _ => FpM.forT fun _ _ _ _ => FpM.bind (Dims.fp_get_row_R fun _ _ => hr _) fun _ => FpM.bind (FpM.lift _) fun _ =>
      Dims.fp_set_row_R fun _ _ => hw _

theorem rf_perLine (h : g.d.Ok) {op : List α → Exec (List α)} {v dv : ι} (hne : v ≠ dv) : RFM (g.perLine_T op v dv) :=
  RFM.bind (RFM.size _) fun _ => RFM.bind (RFM.lift _) fun _ => RFM.bind (RFM.size _) fun _ => RFM.bind (RFM.lift _) fun _ =>
    RFM.parFor (fun _ a _ => a = v) (fun it a p => a = dv ∧ g.d.InLat it p)
      (fun _ _ => RFM.forT fun _ _ => RFM.bind (Dims.rf_get_row_R _ _ _ _) fun _ => RFM.bind (RFM.lift _) fun _ => Dims.rf_set_row_R _ _ _ _)
      (fun _ _ => FpM.forT fun ip _ hp _ => FpM.bind (Dims.fp_get_row_R fun _ _ => rfl) fun _ => FpM.bind (FpM.lift _) fun _ =>
        Dims.fp_set_row_R fun ix hx => ⟨rfl, ix, ip, hx, hp, rfl⟩)
      (fun _ _ hi hj hij a _ hw => ⟨fun e => hne (e.symm.trans hw.1), fun hw' => hij (h.lat_disj hi hj hw.2 hw'.2)⟩)

theorem rf_spectrum (h : g.d.Ok) {J : Junk (Cx α)} {v p : ι} (hne : v ≠ p) : RFM (g.set_angular_power_spectrum_T J v p) :=
  RFM.bind (RFM.size _) fun _ => RFM.bind (RFM.lift _) fun _ => RFM.bind (RFM.size _) fun _ => RFM.bind (RFM.lift _) fun _ =>
    RFM.parFor (fun _ a _ => a = v) (fun ix a q => a = p ∧ g.d.InRowL ix q)
      (fun _ _ => RFM.bind (Dims.rf_get_row_th_ph _ _ _) fun _ => RFM.bind (RFM.lift _) fun _ => Dims.rf_set_row_l _ _ _)
      (fun _ _ => FpM.bind (Dims.fp_get_row_th_ph fun _ _ _ _ => rfl) fun _ => FpM.bind (FpM.lift _) fun _ =>
        Dims.fp_set_row_l fun il hl => ⟨rfl, il, hl, rfl⟩)
      (fun _ _ hi hj hij a _ hw => ⟨fun e => hne (e.symm.trans hw.1), fun hw' => hij (h.rowl_disj hi hj hw.2 hw'.2)⟩)

theorem rf_n_l_coef (h : g.d.Ok) {c : Cheb α} {J : Junk (Cx α)} {v p : ι} (hne : v ≠ p) : RFM (g.set_n_l_coef_T c J v p) :=
  RFM.bind (RFM.size _) fun _ => RFM.bind (RFM.lift _) fun _ => RFM.bind (RFM.size _) fun _ => RFM.bind (RFM.lift _) fun _ =>
    RFM.bind (rf_spectrum h hne) fun _ =>
    RFM.parFor (fun il a q => a = p ∧ g.d.InColL il q) (fun il a q => a = p ∧ g.d.InColL il q)
      (fun _ _ => RFM.bind (Dims.rf_get_row_n _ _ _) fun _ => RFM.bind (RFM.lift _) fun _ => RFM.bind (RFM.lift _) fun _ => Dims.rf_set_row_n _ _ _)
      (fun _ _ => FpM.bind (Dims.fp_get_row_n fun ix hx => ⟨rfl, ix, hx, rfl⟩) fun _ => FpM.bind (FpM.lift _) fun _ =>
        FpM.bind (FpM.lift _) fun _ => Dims.fp_set_row_n fun ix hx => ⟨rfl, ix, hx, rfl⟩)
      (fun _ _ hi hj hij a _ hw => ⟨fun hw' => hij (h.coll_disj hi hj hw.2 hw'.2), fun hw' => hij (h.coll_disj hi hj hw.2 hw'.2)⟩)

theorem fp_filter {J : Junk (Cx α)} {v : ι} (hr : ∀ i, R v i) (hw : ∀ i, Wr v i) : FpM R Wr (g.filter_T J v) :=
  FpM.bind (FpM.size _) fun _ => FpM.bind (FpM.lift _) fun _ => FpM.bind
    (FpM.parFor fun _ _ => FpM.bind (Dims.fp_get_row_th_ph fun _ _ _ _ => hr _) fun _ => FpM.bind (FpM.lift _) fun _ =>
      Dims.fp_set_row_th_ph fun _ _ _ _ => hw _) fun _ =>
    FpM.parFor fun _ _ => FpM.forT fun _ _ _ _ => FpM.bind (Dims.fp_get_row_R fun _ _ => hr _) fun _ => FpM.bind (FpM.lift _) fun _ =>
      FpM.bind (FpM.lift _) fun _ => FpM.bind (Dims.fp_set_row_R fun _ _ => hw _) fun _ => FpM.bind (FpM.lift _) fun _ =>
        FpM.bind (FpM.lift _) fun _ => FpM.pure _

theorem rf_filter (h : g.d.Ok) {J : Junk (Cx α)} {v : ι} : RFM (g.filter_T J v) :=
  RFM.bind (RFM.size _) fun _ => RFM.bind (RFM.lift _) fun _ => RFM.bind
    (RFM.parFor (fun ix a p => a = v ∧ g.d.InShell ix p) (fun ix a p => a = v ∧ g.d.InShell ix p)
      (fun _ _ => RFM.bind (Dims.rf_get_row_th_ph _ _ _) fun _ => RFM.bind (RFM.lift _) fun _ => Dims.rf_set_row_th_ph _ _ _)
      (fun _ _ => FpM.bind (Dims.fp_get_row_th_ph fun it ip ht hp => ⟨rfl, it, ip, ht, hp, rfl⟩) fun _ => FpM.bind (FpM.lift _) fun _ =>
        Dims.fp_set_row_th_ph fun it ip ht hp => ⟨rfl, it, ip, ht, hp, rfl⟩)
      (fun _ _ hi hj hij a _ hw => ⟨fun hw' => hij (h.shell_disj hi hj hw.2 hw'.2), fun hw' => hij (h.shell_disj hi hj hw.2 hw'.2)⟩)) fun _ =>
    RFM.parFor (fun it a p => a = v ∧ g.d.InLat it p) (fun it a p => a = v ∧ g.d.InLat it p)
      (fun _ _ => RFM.forT fun _ _ => RFM.bind (Dims.rf_get_row_R _ _ _ _) fun _ => RFM.bind (RFM.lift _) fun _ => RFM.bind (RFM.lift _) fun _ =>
        RFM.bind (Dims.rf_set_row_R _ _ _ _) fun _ => RFM.bind (RFM.lift _) fun _ => RFM.bind (RFM.lift _) fun _ => RFM.pure _)
      (fun _ _ => FpM.forT fun ip _ hp _ => FpM.bind (Dims.fp_get_row_R fun ix hx => ⟨rfl, ix, ip, hx, hp, rfl⟩) fun _ => FpM.bind (FpM.lift _) fun _ =>
        FpM.bind (FpM.lift _) fun _ => FpM.bind (Dims.fp_set_row_R fun ix hx => ⟨rfl, ix, ip, hx, hp, rfl⟩) fun _ => FpM.bind (FpM.lift _) fun _ =>
          FpM.bind (FpM.lift _) fun _ => FpM.pure _)
      (fun _ _ hi hj hij a _ hw => ⟨fun hw' => hij (h.lat_disj hi hj hw.2 hw'.2), fun hw' => hij (h.lat_disj hi hj hw.2 hw'.2)⟩)

end Grid

/-- a parallel loop whose iteration `i` touches element `i` only -/
theorem RFM.pointwise {n : Nat} {body : Nat → ThM ι α Unit} (hb : ∀ j, RFM (body j))
    (hf : ∀ j, FpM (fun _ p => p = j) (fun _ p => p = j) (body j)) : RFM (ThM.parFor n body) :=
  RFM.parFor (fun j _ p => p = j) (fun j _ p => p = j) (fun j _ => hb j) (fun j _ => hf j)
    fun _ _ _ _ hij _ _ hw => ⟨fun h => hij (hw.symm.trans h), fun h => hij (hw.symm.trans h)⟩

theorem rf_shift {n np1 : ι} (size : Nat) : RFM (shift_T size n np1 : ThM ι α Unit) :=
  RFM.pointwise (fun _ => RFM.bind (RFM.load _ _) fun _ => RFM.store _ _ _)
    fun _ => FpM.bind (FpM.load rfl) fun _ => FpM.store rfl

/-- parallel sections: separate footprints -/
theorem RFM.sections {l : List (ThM ι α Unit)} (R Wr : Nat → ι → Prop)
    (hb : ∀ j (h : j < l.length), RFM l[j]) (hf : ∀ j (h : j < l.length), FpM (fun a _ => R j a) (fun a _ => Wr j a) l[j])
    (hd : ∀ i j, i < l.length → j < l.length → i ≠ j → ∀ a, Wr i a → ¬ R j a ∧ ¬ Wr j a) : RFM (ThM.sections l) := by
  have e : ∀ j (h : j < l.length), l.getD j (Pure.pure ()) = l[j] := fun j h => by simp [List.getD, h]
  refine RFM.parFor (fun j a _ => R j a) (fun j a _ => Wr j a) (fun j hj => ?_) (fun j hj => ?_) (fun i j hi hj hij a _ => hd i j hi hj hij a)
  · rw [e j hj]; exact hb j hj
  · rw [e j hj]; exact hf j hj

theorem run_sections (l : List (ThM ι α Unit)) (k : Unit → Th ι α) (m : Mem ι α) :
    ((ThM.sections l) k).run m = (l.foldlM (fun m p => (p fun _ => .done).run m) m : Exec (Mem ι α)).bind fun m => (k ()).run m := by
  change (forRange 0 l.length m fun j m => ((l.getD j (Pure.pure ())) fun _ => .done).run m).bind _ = _
  congr 1
  unfold forRange
  have key : ∀ (pre : List (ThM ι α Unit)) (l : List (ThM ι α Unit)) (m : Mem ι α),
      (forN l.length pre.length m fun j m => (((pre ++ l).getD j (Pure.pure ())) fun _ => .done).run m) =
        l.foldlM (fun m p => (p fun _ => .done).run m) m := by
    intro pre l
    induction l generalizing pre with
    | nil => intro m; rfl
    | cons p l ih =>
      intro m
      dsimp only [List.length_cons, forN]
      have e : (pre ++ p :: l).getD pre.length (Pure.pure ()) = p := by simp
      rw [e, List.foldlM_cons]
      cases (p fun _ => .done).run m with
      | error e => rfl
      | ok m' =>
        have := ih (pre ++ [p]) m'
        rw [List.length_append, List.length_singleton, List.append_assoc, List.singleton_append] at this
        exact this
  exact key [] l m

end
end SFK
