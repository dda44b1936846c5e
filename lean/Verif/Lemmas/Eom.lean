import Verif.Model.ScalarEom
import Verif.Lemmas.Grid
/-
Closed forms of the field bookkeeping and of the equation-of-motion routines (bitwise, for every scalar type).
-/
namespace SFK
open Scalar

namespace Field
variable {α : Type} [Inhabited α]

theorem shift_eq {f : Field α} (hn : f.n.length = f.size) (hp : f.np1.length = f.size) :
    f.shift = .ok { f with n := f.np1 } := by
  unfold shift
  rw [forRange_fill (n := f.size) (gv f.np1) hn (fun i w hi _ _ => by rw [rd_ok (by omega), ok_bind]), ok_bind,
    tab_gv' hp]

end Field

namespace Eom
variable {α : Type} [Scalar α] {g : Grid α} {e : Eom α}

/-- lengths of the work arrays -/
def ScrOk (s : Scratch α) (n : Nat) : Prop :=
  s.dr_f.length = n ∧ s.lap_f.length = n ∧ s.dr_p.length = n ∧ s.dr_dr_f.length = n ∧ s.dphi_f.length = n ∧
    s.dphi_dr_f.length = n ∧ s.sphereX_f.length = n

/-- What the constructor establishes. -/
structure Wf0 (e : Eom α) (g : Grid α) : Prop where
  n_eq : e.n = g.d.total
  coef : e.coef.length = g.d.total
  scr : ScrOk e.scr g.d.total

/-- The same, on a grid whose `sphereX` reads no uninitialised memory. -/
structure Wf (e : Eom α) (g : Grid α) : Prop extends Wf0 e g where
  full : g.Full


/-- coefficients of the point `(ix,it,ip)` -/
def coefAt (g : Grid α) (P : ParamRec α) (ix it : Nat) : Coef α :=
  coefOf P.bh_mass P.bh_spin (invR P.cl g.cl (g.radial.ptV ix)) (g.thV it)

theorem mkCoef_eq (h : g.Wf) (P : ParamRec α) :
    mkCoef g P = .ok (g.d.mk3 fun ix it _ => coefAt g P ix it) := by
  unfold mkCoef
  apply h.ok.fill_xpt (by simp [h.nTot_eq]) (fun ix it _ => coefAt g P ix it)
  intro ix it ip w hr hw _
  rw [h.getR_eq hr, ok_bind]
  rfl

theorem mk'_eq (h : g.Wf) (P : ParamRec α) : mk' g P = .ok
    { n := g.d.total, dt := P.dt, km1 := P.km1, k0 := P.k0, k1 := P.k1, k2 := P.k2, v2 := P.V2, v3 := P.V3, v4 := P.V4,
      coef := g.d.mk3 fun ix it _ => coefAt g P ix it,
      scr := ⟨List.replicate g.d.total 0, List.replicate g.d.total 0, List.replicate g.d.total 0,
        List.replicate g.d.total 0, List.replicate g.d.total 0, List.replicate g.d.total 0, List.replicate g.d.total 0⟩,
      ndebug := g.d.ndebug } := by
  unfold mk'
  rw [mkCoef_eq h, ok_bind, h.nTot_eq]

theorem mk'_wf (h : g.Wf) (hf : g.Full) {P : ParamRec α} (he : mk' g P = .ok e) : e.Wf g := by
  rw [mk'_eq h] at he
  cases he
  exact ⟨⟨rfl, by simp, by simp [ScrOk]⟩, hf⟩

/-- pure derivative arrays -/
noncomputable def scrP (g : Grid α) (f p : List α) : Scratch α :=
  ⟨g.prP f, g.plapP f, g.prP p, g.p2rP f, g.pphiP f, g.prP (g.pphiP f), g.psphXP f⟩

theorem scrP_ok (f p : List α) : ScrOk (scrP g f p) g.d.total := by simp [scrP, ScrOk]

/-- pure right-hand side of the second field -/
noncomputable def rhs (e : Eom α) (g : Grid α) (f p : List α) : List α :=
  tab g.d.total fun i => e.pk (gv e.coef i) (gv f i) (gv p i) (gv (g.prP f) i) (gv (g.prP p) i) (gv (g.p2rP f) i)
    (gv (g.pphiP f) i) (gv (g.prP (g.pphiP f)) i) (gv (g.psphXP f) i) (gv (g.plapP f) i)

@[simp] theorem rhs_length (f p : List α) : (e.rhs g f p).length = g.d.total := by simp [rhs]

theorem sections_eq (h : g.Wf) (he : e.Wf g) (J : Junk (Cx α)) {f p : List α} (hf : f.length = g.d.total)
    (hp : p.length = g.d.total) : e.sections g J f p = .ok (scrP g f p) := by
  obtain ⟨s1, s2, s3, s4, s5, s6, s7⟩ := he.scr
  unfold sections
  rw [h.set_partial_r_eq hf s1, ok_bind, h.set_partial_r_eq hp s3, ok_bind, h.set_partial2_r_eq hf s4, ok_bind,
    h.set_partial_phi_eq _ hf s5, ok_bind, h.set_partial_r_eq (by simp) s6, ok_bind, h.set_sphereX_eq he.full _ hf s7, ok_bind,
    h.set_spherical_lap_eq _ hf s2, ok_bind]
  rfl

theorem kLoop_eq (he : e.Wf g) {f p fk pk' : List α} (hf : f.length = g.d.total)
    (hp : p.length = g.d.total) (h1 : fk.length = g.d.total) (h2 : pk'.length = g.d.total) :
    e.kLoop (scrP g f p) f p fk pk' = .ok (p, e.rhs g f p) := by
  unfold kLoop
  rw [he.n_eq]
  have a1 := forRange_fill (n := g.d.total) (v := fk) (gv p) h1 (b := fun i w => wr w i (gv p i)) (fun _ _ _ _ _ => rfl)
  have a2 := forRange_fill (n := g.d.total) (v := pk') (fun i => e.pk (gv e.coef i) (gv f i) (gv p i) (gv (g.prP f) i)
      (gv (g.prP p) i) (gv (g.p2rP f) i) (gv (g.pphiP f) i) (gv (g.prP (g.pphiP f)) i) (gv (g.psphXP f) i)
      (gv (g.plapP f) i)) h2 (b := fun i w => wr w i (e.pk (gv e.coef i) (gv f i) (gv p i) (gv (g.prP f) i)
      (gv (g.prP p) i) (gv (g.p2rP f) i) (gv (g.pphiP f) i) (gv (g.prP (g.pphiP f)) i) (gv (g.psphXP f) i)
      (gv (g.plapP f) i))) (fun _ _ _ _ _ => rfl)
  rw [tab_gv' hp] at a1
  refine forRange_prod _ _ ?_ a1 a2
  intro i x y x' y' _ hi e1 e2
  have hc := he.coef
  unfold scrP
  rw [rd_ok (by omega), ok_bind, rd_ok (by omega), ok_bind, rd_ok (by omega), ok_bind, rd_ok (by simp; omega), ok_bind,
    rd_ok (by simp; omega), ok_bind, rd_ok (by simp; omega), ok_bind, rd_ok (by simp; omega), ok_bind,
    rd_ok (by simp; omega), ok_bind, rd_ok (by simp; omega), ok_bind, rd_ok (by simp; omega), ok_bind]
  dsimp only
  rw [e1, ok_bind, e2]
  rfl

theorem set_k_eq (h : g.Wf) (he : e.Wf g) (J : Junk (Cx α)) {f p fk pk' : List α} (hf : f.length = g.d.total)
    (hp : p.length = g.d.total) (h1 : fk.length = g.d.total) (h2 : pk'.length = g.d.total) :
    e.set_k g J f p fk pk' = .ok ({ e with scr := scrP g f p }, p, e.rhs g f p) := by
  unfold set_k
  rw [cassert_true _ _ (by simp [hf, he.n_eq]), ok_bind, cassert_true _ _ (by simp [hp, he.n_eq]), ok_bind,
    cassert_true _ _ (by simp [h1, he.n_eq]), ok_bind, cassert_true _ _ (by simp [h2, he.n_eq]), ok_bind,
    sections_eq h he J hf hp, ok_bind, kLoop_eq he hf hp h1 h2]
  rfl

/-- lengths of the arrays of a field -/
def FieldOk (f : Field α) (n : Nat) : Prop :=
  f.n.length = n ∧ f.l.length = n ∧ f.np1.length = n ∧ f.k.length = n ∧ f.size = n

theorem levelLoop_stage {f : Field α} {n : Nat} (hf : FieldOk f n) (st : α → α → α) :
    levelLoop n (some st) none f = .ok { f with l := tab n fun i => st (gv f.n i) (gv f.k i) } := by
  obtain ⟨h1, h2, h3, h4, h5⟩ := hf
  unfold levelLoop
  have a1 := forRange_fill (n := n) (v := f.l) (fun i => st (gv f.n i) (gv f.k i)) h2
    (b := fun i w => wr w i (st (gv f.n i) (gv f.k i))) (fun _ _ _ _ _ => rfl)
  have a2 : forRange 0 n f.np1 (fun _ w => .ok w) = .ok f.np1 :=
    forRange_closed (fun _ => f.np1) (Nat.zero_le _) rfl (fun _ _ _ => rfl)
  rw [forRange_prod _ _ ?_ a1 a2, ok_bind]
  intro i x y x' y' _ hi e1 e2
  simp only [rd_ok (show i < f.n.length by omega), rd_ok (show i < f.k.length by omega), ok_bind, e1]
  simp only [Except.ok.injEq] at e2
  rw [e2]

theorem levelLoop_acc {f : Field α} {n : Nat} (hf : FieldOk f n) (ac : α → α → α → α) :
    levelLoop n none (some ac) f = .ok { f with np1 := tab n fun i => ac (gv f.n i) (gv f.k i) (gv f.np1 i) } := by
  obtain ⟨h1, h2, h3, h4, h5⟩ := hf
  unfold levelLoop
  have a1 : forRange 0 n f.l (fun _ w => .ok w) = .ok f.l :=
    forRange_closed (fun _ => f.l) (Nat.zero_le _) rfl (fun _ _ _ => rfl)
  have a2 := forRange_fill (n := n) (v := f.np1) (fun i => ac (gv f.n i) (gv f.k i) (gv f.np1 i)) h3
    (b := fun i w => (do let o ← rd w i; wr w i (ac (gv f.n i) (gv f.k i) o))) (fun i w hi hw hg => by
      rw [rd_ok (by omega), ok_bind, hg])
  rw [forRange_prod _ _ ?_ a1 a2, ok_bind]
  intro i x y x' y' _ hi e1 e2
  simp only [rd_ok (show i < f.n.length by omega), rd_ok (show i < f.k.length by omega), ok_bind]
  simp only [Except.ok.injEq] at e1
  cases hr : rd y i with
  | error er => rw [hr] at e2; cases e2
  | ok o =>
    rw [hr, ok_bind] at e2
    rw [ok_bind, e2, e1]
    rfl

theorem levelLoop_both {f : Field α} {n : Nat} (hf : FieldOk f n) (st : α → α → α) (ac : α → α → α → α) :
    levelLoop n (some st) (some ac) f = .ok { f with
      l := tab n fun i => st (gv f.n i) (gv f.k i)
      np1 := tab n fun i => ac (gv f.n i) (gv f.k i) (gv f.np1 i) } := by
  obtain ⟨h1, h2, h3, h4, h5⟩ := hf
  unfold levelLoop
  have a1 := forRange_fill (n := n) (v := f.l) (fun i => st (gv f.n i) (gv f.k i)) h2
    (b := fun i w => wr w i (st (gv f.n i) (gv f.k i))) (fun _ _ _ _ _ => rfl)
  have a2 := forRange_fill (n := n) (v := f.np1) (fun i => ac (gv f.n i) (gv f.k i) (gv f.np1 i)) h3
    (b := fun i w => (do let o ← rd w i; wr w i (ac (gv f.n i) (gv f.k i) o))) (fun i w hi hw hg => by
      rw [rd_ok (by omega), ok_bind, hg])
  rw [forRange_prod _ _ ?_ a1 a2, ok_bind]
  intro i x y x' y' _ hi e1 e2
  simp only [rd_ok (show i < f.n.length by omega), rd_ok (show i < f.k.length by omega), ok_bind]
  cases hr : rd y i with
  | error er => rw [hr] at e2; cases e2
  | ok o =>
    rw [hr, ok_bind] at e2
    rw [e1, ok_bind, ok_bind, e2]
    rfl

/-- `u + c*k`, entry by entry -/
def ax (n : Nat) (u : List α) (c : α) (k : List α) : List α := tab n fun i => gv u i + c * gv k i

@[simp] theorem ax_length (n : Nat) (u : List α) (c : α) (k : List α) : (ax n u c k).length = n := by simp [ax]

/-- the stage slopes of one step started from the (filtered) level `(F,P)` -/
noncomputable def L2 (e : Eom α) (g : Grid α) (F P : List α) : List α × List α :=
  (ax g.d.total F (lit (1/2) * e.dt) P, ax g.d.total P (lit (1/2) * e.dt) (e.rhs g F P))
noncomputable def L3 (e : Eom α) (g : Grid α) (F P : List α) : List α × List α :=
  (ax g.d.total F (lit (1/2) * e.dt) (e.L2 g F P).2,
   ax g.d.total P (lit (1/2) * e.dt) (e.rhs g (e.L2 g F P).1 (e.L2 g F P).2))
noncomputable def L4 (e : Eom α) (g : Grid α) (F P : List α) : List α × List α :=
  (ax g.d.total F e.dt (e.L3 g F P).2, ax g.d.total P e.dt (e.rhs g (e.L3 g F P).1 (e.L3 g F P).2))

/-- the new level -/
noncomputable def stepF (e : Eom α) (g : Grid α) (F P : List α) : List α × List α :=
  (ax g.d.total (ax g.d.total (ax g.d.total (ax g.d.total F (e.dt / 6) P) (e.dt / 3) (e.L2 g F P).2)
      (e.dt / 3) (e.L3 g F P).2) (e.dt / 6) (e.L4 g F P).2,
   ax g.d.total (ax g.d.total (ax g.d.total (ax g.d.total P (e.dt / 6) (e.rhs g F P))
      (e.dt / 3) (e.rhs g (e.L2 g F P).1 (e.L2 g F P).2)) (e.dt / 3) (e.rhs g (e.L3 g F P).1 (e.L3 g F P).2))
      (e.dt / 6) (e.rhs g (e.L4 g F P).1 (e.L4 g F P).2))

@[simp] theorem L2_len1 (F P : List α) : (e.L2 g F P).1.length = g.d.total := by simp [L2]
@[simp] theorem L2_len2 (F P : List α) : (e.L2 g F P).2.length = g.d.total := by simp [L2]
@[simp] theorem L3_len1 (F P : List α) : (e.L3 g F P).1.length = g.d.total := by simp [L3]
@[simp] theorem L3_len2 (F P : List α) : (e.L3 g F P).2.length = g.d.total := by simp [L3]
@[simp] theorem L4_len1 (F P : List α) : (e.L4 g F P).1.length = g.d.total := by simp [L4]
@[simp] theorem L4_len2 (F P : List α) : (e.L4 g F P).2.length = g.d.total := by simp [L4]
@[simp] theorem stepF_len1 (F P : List α) : (e.stepF g F P).1.length = g.d.total := by simp [stepF]
@[simp] theorem stepF_len2 (F P : List α) : (e.stepF g F P).2.length = g.d.total := by simp [stepF]

theorem ax_gv {n : Nat} {u k : List α} {c : α} {i : Nat} (hi : i < n) : gv (ax n u c k) i = gv u i + c * gv k i := gv_tab hi

theorem set_level_1 (he : e.Wf0 g) {f p : Field α} (hf : FieldOk f g.d.total) (hp : FieldOk p g.d.total) :
    e.set_level 1 f p = .ok ({ f with l := f.n }, { p with l := p.n }) := by
  unfold set_level
  simp only [if_true]
  rw [he.n_eq, levelLoop_stage hf, ok_bind, levelLoop_stage hp, ok_bind]
  rw [tab_gv' hf.1, tab_gv' hp.1]

theorem set_level_2 (he : e.Wf0 g) {f p : Field α} (hf : FieldOk f g.d.total) (hp : FieldOk p g.d.total) :
    e.set_level 2 f p = .ok (
      { f with l := ax g.d.total f.n (lit (1/2) * e.dt) f.k, np1 := ax g.d.total f.n (e.dt / 6) f.k },
      { p with l := ax g.d.total p.n (lit (1/2) * e.dt) p.k, np1 := ax g.d.total p.n (e.dt / 6) p.k }) := by
  unfold set_level
  simp only [show ¬ ((2 : Int) = 1) by omega, if_false, if_true]
  rw [he.n_eq, levelLoop_both hf, ok_bind, levelLoop_both hp, ok_bind]
  rfl

theorem set_level_3 (he : e.Wf0 g) {f p : Field α} (hf : FieldOk f g.d.total) (hp : FieldOk p g.d.total) :
    e.set_level 3 f p = .ok (
      { f with l := ax g.d.total f.n (lit (1/2) * e.dt) f.k, np1 := ax g.d.total f.np1 (e.dt / 3) f.k },
      { p with l := ax g.d.total p.n (lit (1/2) * e.dt) p.k, np1 := ax g.d.total p.np1 (e.dt / 3) p.k }) := by
  unfold set_level
  simp only [show ¬ ((3 : Int) = 1) by omega, show ¬ ((3 : Int) = 2) by omega, if_false, if_true]
  rw [he.n_eq, levelLoop_both hf, ok_bind, levelLoop_both hp, ok_bind]
  rfl

theorem set_level_4 (he : e.Wf0 g) {f p : Field α} (hf : FieldOk f g.d.total) (hp : FieldOk p g.d.total) :
    e.set_level 4 f p = .ok (
      { f with l := ax g.d.total f.n e.dt f.k, np1 := ax g.d.total f.np1 (e.dt / 3) f.k },
      { p with l := ax g.d.total p.n e.dt p.k, np1 := ax g.d.total p.np1 (e.dt / 3) p.k }) := by
  unfold set_level
  simp only [show ¬ ((4 : Int) = 1) by omega, show ¬ ((4 : Int) = 2) by omega, show ¬ ((4 : Int) = 3) by omega, if_false, if_true]
  rw [he.n_eq, levelLoop_both hf, ok_bind, levelLoop_both hp, ok_bind]
  rfl

theorem set_level_5 (he : e.Wf0 g) {f p : Field α} (hf : FieldOk f g.d.total) (hp : FieldOk p g.d.total) :
    e.set_level 5 f p = .ok (
      { f with np1 := ax g.d.total f.np1 (e.dt / 6) f.k }, { p with np1 := ax g.d.total p.np1 (e.dt / 6) p.k }) := by
  unfold set_level
  simp only [show ¬ ((5 : Int) = 1) by omega, show ¬ ((5 : Int) = 2) by omega, show ¬ ((5 : Int) = 3) by omega,
    show ¬ ((5 : Int) = 4) by omega, if_false, if_true]
  rw [he.n_eq, levelLoop_acc hf, ok_bind, levelLoop_acc hp, ok_bind]
  rfl

theorem Wf.scr' (he : e.Wf g) (f p : List α) : Wf { e with scr := scrP g f p } g := ⟨⟨he.n_eq, he.coef, scrP_ok f p⟩, he.full⟩

/-- Closed form of a time step. -/
theorem time_step_eq (h : g.Wf) (he : e.Wf g) (J : Junk (Cx α)) {f p : Field α} (hf : FieldOk f g.d.total)
    (hp : FieldOk p g.d.total) :
    e.time_step g J f p =
      let F := g.filtP f.n
      let P := g.filtP p.n
      .ok ({ e with scr := scrP g (e.L4 g F P).1 (e.L4 g F P).2 },
        { f with n := F, l := (e.L4 g F P).1, np1 := (e.stepF g F P).1, k := (e.L4 g F P).2 },
        { p with n := P, l := (e.L4 g F P).2, np1 := (e.stepF g F P).2, k := e.rhs g (e.L4 g F P).1 (e.L4 g F P).2 }) := by
  obtain ⟨f1, f2, f3, f4, f5⟩ := hf
  obtain ⟨p1, p2, p3, p4, p5⟩ := hp
  dsimp only
  unfold time_step
  rw [cassert_true _ _ (by simp [f5, he.n_eq]), ok_bind, cassert_true _ _ (by simp [p5, he.n_eq]), ok_bind,
    h.filter_eq _ f1, ok_bind, h.filter_eq _ p1, ok_bind]
  have hF : (g.filtP f.n).length = g.d.total := by simp
  have hP : (g.filtP p.n).length = g.d.total := by simp
  generalize g.filtP f.n = F at hF ⊢
  generalize g.filtP p.n = P at hP ⊢
  have fo : ∀ {a : Field α}, a.n.length = g.d.total → a.l.length = g.d.total → a.np1.length = g.d.total →
      a.k.length = g.d.total → a.size = g.d.total → FieldOk a g.d.total := fun a b c d e => ⟨a, b, c, d, e⟩
  rw [set_level_1 he.toWf0 (by apply fo <;> assumption) (by apply fo <;> assumption), ok_bind]
  dsimp only
  rw [set_k_eq h he _ hF hP f4 p4, ok_bind]
  dsimp only
  rw [set_level_2 (he.scr' F P).toWf0 (by apply fo <;> first | assumption | simp) (by apply fo <;> first | assumption | simp),
    ok_bind]
  dsimp only
  rw [set_k_eq h (he.scr' F P) _ (by simp) (by simp) hP (by simp), ok_bind]
  dsimp only
  rw [set_level_3 (he.scr' _ _).toWf0 (by apply fo <;> first | assumption | simp) (by apply fo <;> first | assumption | simp),
    ok_bind]
  dsimp only
  rw [set_k_eq h (he.scr' _ _) _ (by simp) (by simp) (by simp) (by simp), ok_bind]
  dsimp only
  rw [set_level_4 (he.scr' _ _).toWf0 (by apply fo <;> first | assumption | simp) (by apply fo <;> first | assumption | simp),
    ok_bind]
  dsimp only
  rw [set_k_eq h (he.scr' _ _) _ (by simp) (by simp) (by simp) (by simp), ok_bind]
  dsimp only
  rw [set_level_5 (he.scr' _ _).toWf0 (by apply fo <;> first | assumption | simp) (by apply fo <;> first | assumption | simp),
    ok_bind]
  rfl

/-- pure energy density -/
noncomputable def rhoP (e : Eom α) (g : Grid α) (f p : List α) : List α :=
  tab g.d.total fun i => e.rhoVal (gv e.coef i) (gv f i) (gv p i) (gv (g.prP f) i) (gv (g.pphiP f) i) (gv (g.psphXP f) i)

@[simp] theorem rhoP_length (f p : List α) : (e.rhoP g f p).length = g.d.total := by simp [rhoP]

theorem set_rho_eq (h : g.Wf) (he : e.Wf g) (J : Junk (Cx α)) {f p rho : List α} (hf : f.length = g.d.total)
    (hp : p.length = g.d.total) (hr : rho.length = g.d.total) :
    e.set_rho g J f p rho = .ok ({ e with scr := { e.scr with
      dr_f := g.prP f, dphi_f := g.pphiP f, sphereX_f := g.psphXP f } }, e.rhoP g f p) := by
  obtain ⟨s1, s2, s3, s4, s5, s6, s7⟩ := he.scr
  have hc := he.coef
  unfold set_rho
  rw [cassert_true _ _ (by simp [hf, he.n_eq]), ok_bind, cassert_true _ _ (by simp [hp, he.n_eq]), ok_bind,
    cassert_true _ _ (by simp [hr, he.n_eq]), ok_bind, h.set_partial_r_eq hf s1, ok_bind,
    h.set_partial_phi_eq _ hf s5, ok_bind, h.set_sphereX_eq he.full _ hf s7, ok_bind, he.n_eq]
  rw [forRange_fill (n := g.d.total) (fun i => e.rhoVal (gv e.coef i) (gv f i) (gv p i) (gv (g.prP f) i)
    (gv (g.pphiP f) i) (gv (g.psphXP f) i)) hr (fun i w hi hw hg => by
      rw [rd_ok (by omega), ok_bind, rd_ok (by omega), ok_bind, rd_ok (by omega), ok_bind, rd_ok (by simp; omega), ok_bind,
        rd_ok (by simp; omega), ok_bind, rd_ok (by simp; omega), ok_bind])]
  rfl

theorem Wf.scrRho (he : e.Wf g) (f : List α) : Wf { e with scr := { e.scr with
      dr_f := g.prP f, dphi_f := g.pphiP f, sphereX_f := g.psphXP f } } g := by
  obtain ⟨s1, s2, s3, s4, s5, s6, s7⟩ := he.scr
  exact ⟨⟨he.n_eq, he.coef, by simp [ScrOk, *]⟩, he.full⟩

/-- the right-hand side, the step and the density do not look at the work arrays -/
@[simp] theorem rhs_scr (s : Scratch α) (f p : List α) : rhs { e with scr := s } g f p = e.rhs g f p := rfl
@[simp] theorem stepF_scr (s : Scratch α) (f p : List α) : stepF { e with scr := s } g f p = e.stepF g f p := rfl
@[simp] theorem rhoP_scr (s : Scratch α) (f p : List α) : rhoP { e with scr := s } g f p = e.rhoP g f p := rfl

/-! ### whatever the uninitialised memory holds -/

/-- new `p_k` from the derivative arrays -/
def pkS (e : Eom α) (n : Nat) (s : Scratch α) (f p : List α) : List α :=
  tab n fun i => e.pk (gv e.coef i) (gv f i) (gv p i) (gv s.dr_f i) (gv s.dr_p i) (gv s.dr_dr_f i)
    (gv s.dphi_f i) (gv s.dphi_dr_f i) (gv s.sphereX_f i) (gv s.lap_f i)

@[simp] theorem pkS_length (n : Nat) (s : Scratch α) (f p : List α) : (e.pkS n s f p).length = n := by simp [pkS]

theorem kLoop_gen (he : e.Wf0 g) {s : Scratch α} (hs : ScrOk s g.d.total) {f p fk pk' : List α} (hf : f.length = g.d.total)
    (hp : p.length = g.d.total) (h1 : fk.length = g.d.total) (h2 : pk'.length = g.d.total) :
    e.kLoop s f p fk pk' = .ok (p, e.pkS g.d.total s f p) := by
  obtain ⟨s1, s2, s3, s4, s5, s6, s7⟩ := hs
  unfold kLoop
  rw [he.n_eq]
  have a1 := forRange_fill (n := g.d.total) (v := fk) (gv p) h1 (b := fun i w => wr w i (gv p i)) (fun _ _ _ _ _ => rfl)
  have a2 := forRange_fill (n := g.d.total) (v := pk') (fun i => e.pk (gv e.coef i) (gv f i) (gv p i) (gv s.dr_f i)
      (gv s.dr_p i) (gv s.dr_dr_f i) (gv s.dphi_f i) (gv s.dphi_dr_f i) (gv s.sphereX_f i)
      (gv s.lap_f i)) h2 (b := fun i w => wr w i (e.pk (gv e.coef i) (gv f i) (gv p i) (gv s.dr_f i)
      (gv s.dr_p i) (gv s.dr_dr_f i) (gv s.dphi_f i) (gv s.dphi_dr_f i) (gv s.sphereX_f i)
      (gv s.lap_f i))) (fun _ _ _ _ _ => rfl)
  rw [tab_gv' hp] at a1
  refine forRange_prod _ _ ?_ a1 a2
  intro i x y x' y' _ hi e1 e2
  have hc := he.coef
  rw [rd_ok (by omega), ok_bind, rd_ok (by omega), ok_bind, rd_ok (by omega), ok_bind, rd_ok (by omega), ok_bind,
    rd_ok (by omega), ok_bind, rd_ok (by omega), ok_bind, rd_ok (by omega), ok_bind,
    rd_ok (by omega), ok_bind, rd_ok (by omega), ok_bind, rd_ok (by omega), ok_bind]
  dsimp only
  rw [e1, ok_bind, e2]
  rfl

/-- derivative arrays -/
noncomputable def scrJ (g : Grid α) (J : Junk (Cx α)) (f p : List α) : Scratch α :=
  ⟨g.prP f, g.plapP f, g.prP p, g.p2rP f, g.pphiP f, g.prP (g.pphiP f), g.psphXJ (J.sub 1) f⟩

theorem scrJ_ok (J : Junk (Cx α)) (f p : List α) : ScrOk (scrJ g J f p) g.d.total := by simp [scrJ, ScrOk]

/-- right-hand side of the second field -/
noncomputable def rhsJ (e : Eom α) (g : Grid α) (J : Junk (Cx α)) (f p : List α) : List α := e.pkS g.d.total (scrJ g J f p) f p

@[simp] theorem rhsJ_length (J : Junk (Cx α)) (f p : List α) : (e.rhsJ g J f p).length = g.d.total := by simp [rhsJ, pkS]

theorem sections_junk_eq (h : g.Wf) (he : e.Wf0 g) (J : Junk (Cx α)) {f p : List α} (hf : f.length = g.d.total)
    (hp : p.length = g.d.total) : e.sections g J f p = .ok (scrJ g J f p) := by
  obtain ⟨s1, s2, s3, s4, s5, s6, s7⟩ := he.scr
  unfold sections
  rw [h.set_partial_r_eq hf s1, ok_bind, h.set_partial_r_eq hp s3, ok_bind, h.set_partial2_r_eq hf s4, ok_bind,
    h.set_partial_phi_eq _ hf s5, ok_bind, h.set_partial_r_eq (by simp) s6, ok_bind, h.set_sphereX_junk_eq _ hf s7, ok_bind,
    h.set_spherical_lap_eq _ hf s2, ok_bind]
  rfl

theorem set_k_junk_eq (h : g.Wf) (he : e.Wf0 g) (J : Junk (Cx α)) {f p fk pk' : List α} (hf : f.length = g.d.total)
    (hp : p.length = g.d.total) (h1 : fk.length = g.d.total) (h2 : pk'.length = g.d.total) :
    e.set_k g J f p fk pk' = .ok ({ e with scr := scrJ g J f p }, p, e.rhsJ g J f p) := by
  have hs := sections_junk_eq h he J hf hp
  unfold set_k
  rw [cassert_true _ _ (by simp [hf, he.n_eq]), ok_bind, cassert_true _ _ (by simp [hp, he.n_eq]), ok_bind,
    cassert_true _ _ (by simp [h1, he.n_eq]), ok_bind, cassert_true _ _ (by simp [h2, he.n_eq]), ok_bind,
    hs, ok_bind, kLoop_gen he (scrJ_ok J f p) hf hp h1 h2]
  rfl

/-- the stages of one step started from the (filtered) level `(F,P)` -/
noncomputable def LJ2 (e : Eom α) (g : Grid α) (J : Junk (Cx α)) (F P : List α) : List α × List α :=
  (ax g.d.total F (lit (1/2) * e.dt) P, ax g.d.total P (lit (1/2) * e.dt) (e.rhsJ g (J.sub 2) F P))
noncomputable def LJ3 (e : Eom α) (g : Grid α) (J : Junk (Cx α)) (F P : List α) : List α × List α :=
  (ax g.d.total F (lit (1/2) * e.dt) (e.LJ2 g J F P).2,
   ax g.d.total P (lit (1/2) * e.dt) (e.rhsJ g (J.sub 3) (e.LJ2 g J F P).1 (e.LJ2 g J F P).2))
noncomputable def LJ4 (e : Eom α) (g : Grid α) (J : Junk (Cx α)) (F P : List α) : List α × List α :=
  (ax g.d.total F e.dt (e.LJ3 g J F P).2, ax g.d.total P e.dt (e.rhsJ g (J.sub 4) (e.LJ3 g J F P).1 (e.LJ3 g J F P).2))

/-- the new level -/
noncomputable def stepJ (e : Eom α) (g : Grid α) (J : Junk (Cx α)) (F P : List α) : List α × List α :=
  (ax g.d.total (ax g.d.total (ax g.d.total (ax g.d.total F (e.dt / 6) P) (e.dt / 3) (e.LJ2 g J F P).2)
      (e.dt / 3) (e.LJ3 g J F P).2) (e.dt / 6) (e.LJ4 g J F P).2,
   ax g.d.total (ax g.d.total (ax g.d.total (ax g.d.total P (e.dt / 6) (e.rhsJ g (J.sub 2) F P))
      (e.dt / 3) (e.rhsJ g (J.sub 3) (e.LJ2 g J F P).1 (e.LJ2 g J F P).2))
      (e.dt / 3) (e.rhsJ g (J.sub 4) (e.LJ3 g J F P).1 (e.LJ3 g J F P).2))
      (e.dt / 6) (e.rhsJ g (J.sub 5) (e.LJ4 g J F P).1 (e.LJ4 g J F P).2))

section
variable (J : Junk (Cx α)) (F P : List α)
@[simp] theorem LJ2_len1 : (e.LJ2 g J F P).1.length = g.d.total := by simp [LJ2]
@[simp] theorem LJ2_len2 : (e.LJ2 g J F P).2.length = g.d.total := by simp [LJ2]
@[simp] theorem LJ3_len1 : (e.LJ3 g J F P).1.length = g.d.total := by simp [LJ3]
@[simp] theorem LJ3_len2 : (e.LJ3 g J F P).2.length = g.d.total := by simp [LJ3]
@[simp] theorem LJ4_len1 : (e.LJ4 g J F P).1.length = g.d.total := by simp [LJ4]
@[simp] theorem LJ4_len2 : (e.LJ4 g J F P).2.length = g.d.total := by simp [LJ4]
@[simp] theorem stepJ_len1 : (e.stepJ g J F P).1.length = g.d.total := by simp [stepJ]
@[simp] theorem stepJ_len2 : (e.stepJ g J F P).2.length = g.d.total := by simp [stepJ]
end

theorem Wf0.scrJ' (he : e.Wf0 g) (J : Junk (Cx α)) (f p : List α) : Wf0 { e with scr := scrJ g J f p } g :=
  ⟨he.n_eq, he.coef, scrJ_ok J f p⟩

/-- Closed form of a time step, for given contents of the uninitialised memory. -/
theorem time_step_junk_eq (h : g.Wf) (he : e.Wf0 g) (J : Junk (Cx α)) {f p : Field α} (hf : FieldOk f g.d.total)
    (hp : FieldOk p g.d.total) :
    e.time_step g J f p =
      let F := g.filtP f.n
      let P := g.filtP p.n
      .ok ({ e with scr := scrJ g (J.sub 5) (e.LJ4 g J F P).1 (e.LJ4 g J F P).2 },
        { f with n := F, l := (e.LJ4 g J F P).1, np1 := (e.stepJ g J F P).1, k := (e.LJ4 g J F P).2 },
        { p with n := P, l := (e.LJ4 g J F P).2, np1 := (e.stepJ g J F P).2, k := e.rhsJ g (J.sub 5) (e.LJ4 g J F P).1 (e.LJ4 g J F P).2 }) := by
  obtain ⟨f1, f2, f3, f4, f5⟩ := hf
  obtain ⟨p1, p2, p3, p4, p5⟩ := hp
  dsimp only
  unfold time_step
  rw [cassert_true _ _ (by simp [f5, he.n_eq]), ok_bind, cassert_true _ _ (by simp [p5, he.n_eq]), ok_bind,
    h.filter_eq _ f1, ok_bind, h.filter_eq _ p1, ok_bind]
  have hF : (g.filtP f.n).length = g.d.total := by simp
  have hP : (g.filtP p.n).length = g.d.total := by simp
  generalize g.filtP f.n = F at hF ⊢
  generalize g.filtP p.n = P at hP ⊢
  have fo : ∀ {a : Field α}, a.n.length = g.d.total → a.l.length = g.d.total → a.np1.length = g.d.total →
      a.k.length = g.d.total → a.size = g.d.total → FieldOk a g.d.total := fun a b c d e => ⟨a, b, c, d, e⟩
  rw [set_level_1 he (by apply fo <;> assumption) (by apply fo <;> assumption), ok_bind]
  dsimp only
  rw [set_k_junk_eq h he _ hF hP f4 p4, ok_bind]
  dsimp only
  rw [set_level_2 (he.scrJ' _ F P) (by apply fo <;> first | assumption | simp) (by apply fo <;> first | assumption | simp),
    ok_bind]
  dsimp only
  rw [set_k_junk_eq h (he.scrJ' _ F P) _ (by simp) (by simp) hP (by simp), ok_bind]
  dsimp only
  rw [set_level_3 (he.scrJ' _ _ _) (by apply fo <;> first | assumption | simp) (by apply fo <;> first | assumption | simp),
    ok_bind]
  dsimp only
  rw [set_k_junk_eq h (he.scrJ' _ _ _) _ (by simp) (by simp) (by simp) (by simp), ok_bind]
  dsimp only
  rw [set_level_4 (he.scrJ' _ _ _) (by apply fo <;> first | assumption | simp) (by apply fo <;> first | assumption | simp),
    ok_bind]
  dsimp only
  rw [set_k_junk_eq h (he.scrJ' _ _ _) _ (by simp) (by simp) (by simp) (by simp), ok_bind]
  dsimp only
  rw [set_level_5 (he.scrJ' _ _ _) (by apply fo <;> first | assumption | simp) (by apply fo <;> first | assumption | simp),
    ok_bind]
  rfl

/-- energy density, for given contents of the uninitialised memory -/
noncomputable def rhoJ (e : Eom α) (g : Grid α) (J : Junk (Cx α)) (f p : List α) : List α :=
  tab g.d.total fun i => e.rhoVal (gv e.coef i) (gv f i) (gv p i) (gv (g.prP f) i) (gv (g.pphiP f) i) (gv (g.psphXJ (J.sub 1) f) i)

@[simp] theorem rhoJ_length (J : Junk (Cx α)) (f p : List α) : (e.rhoJ g J f p).length = g.d.total := by simp [rhoJ]

theorem set_rho_junk_eq (h : g.Wf) (he : e.Wf0 g) (J : Junk (Cx α)) {f p rho : List α} (hf : f.length = g.d.total)
    (hp : p.length = g.d.total) (hr : rho.length = g.d.total) :
    e.set_rho g J f p rho = .ok ({ e with scr := { e.scr with
      dr_f := g.prP f, dphi_f := g.pphiP f, sphereX_f := g.psphXJ (J.sub 1) f } }, e.rhoJ g J f p) := by
  obtain ⟨s1, s2, s3, s4, s5, s6, s7⟩ := he.scr
  have hc := he.coef
  unfold set_rho
  rw [cassert_true _ _ (by simp [hf, he.n_eq]), ok_bind, cassert_true _ _ (by simp [hp, he.n_eq]), ok_bind,
    cassert_true _ _ (by simp [hr, he.n_eq]), ok_bind, h.set_partial_r_eq hf s1, ok_bind,
    h.set_partial_phi_eq _ hf s5, ok_bind, h.set_sphereX_junk_eq _ hf s7, ok_bind, he.n_eq]
  rw [forRange_fill (n := g.d.total) (fun i => e.rhoVal (gv e.coef i) (gv f i) (gv p i) (gv (g.prP f) i)
    (gv (g.pphiP f) i) (gv (g.psphXJ (J.sub 1) f) i)) hr (fun i w hi hw hg => by
      rw [rd_ok (by omega), ok_bind, rd_ok (by omega), ok_bind, rd_ok (by omega), ok_bind, rd_ok (by simp; omega), ok_bind,
        rd_ok (by simp; omega), ok_bind, rd_ok (by simp; omega), ok_bind])]
  rfl

end Eom
end SFK
