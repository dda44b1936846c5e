import Verif.Lemmas.OmpLoops

set_option linter.unusedSectionVars false

namespace SFK
open Scalar

section
variable {ι α β γ : Type} [DecidableEq ι]

theorem ok_bind' {x : β} {f : β → Exec γ} : Except.bind (.ok x) f = f x := rfl
theorem run_load (a : ι) (i : Nat) (q : α → ThM ι α β) (k : β → Th ι α) (m : Mem ι α) :
    ((ThM.load a i >>= q) k).run m = (rd (m a) i).bind fun x => (q x k).run m := rfl
theorem run_store (a : ι) (i : Nat) (x : α) (q : Unit → ThM ι α β) (k : β → Th ι α) (m : Mem ι α) :
    ((ThM.store a i x >>= q) k).run m = (wr (m a) i x).bind fun w => (q () k).run (Function.update m a w) := rfl
theorem run_store' (a : ι) (i : Nat) (x : α) (k : Unit → Th ι α) (m : Mem ι α) :
    ((ThM.store a i x) k).run m = (wr (m a) i x).bind fun w => (k ()).run (Function.update m a w) := rfl
theorem run_size (a : ι) (q : Nat → ThM ι α β) (k : β → Th ι α) (m : Mem ι α) :
    ((ThM.size a >>= q) k).run m = (q (m a).length k).run m := rfl
theorem run_lift_ok {e : Exec γ} {x : γ} (h : e = .ok x) (q : γ → ThM ι α β) (k : β → Th ι α) (m : Mem ι α) :
    ((ThM.lift e >>= q) k).run m = (q x k).run m := by rw [h]; rfl
theorem run_lift (e : Exec γ) (q : γ → ThM ι α β) (k : β → Th ι α) (m : Mem ι α) :
    ((ThM.lift e >>= q) k).run m = e.bind fun x => (q x k).run m := by cases e <;> rfl
theorem run_bind (p : ThM ι α γ) (q : γ → ThM ι α β) (k : β → Th ι α) (m : Mem ι α) :
    ((p >>= q) k).run m = (p fun x => q x k).run m := rfl
theorem run_done (m : Mem ι α) : (Th.done : Th ι α).run m = .ok m := rfl

theorem run_parFor_closed {n : Nat} {body : Nat → ThM ι α Unit} (S : Nat → Mem ι α)
    (h : ∀ i, i < n → (body i fun _ => .done).run (S i) = .ok (S (i + 1))) (k : Unit → Th ι α) :
    ((ThM.parFor n body) k).run (S 0) = (k ()).run (S n) := by
  change (forRange 0 n (S 0) fun j m => (body j fun _ => .done).run m).bind (fun m => (k ()).run m) = _
  rw [forRange_closed S (Nat.zero_le _) rfl (fun i _ hi => h i hi)]
  rfl

theorem run_forT_closed {n : Nat} {b : Nat → ThM ι α Unit} (S : Nat → Mem ι α)
    (h : ∀ i, i < n → ∀ k, (b i k).run (S i) = (k ()).run (S (i + 1))) (k : Unit → Th ι α) :
    ((ThM.forT 0 n () fun i _ => b i) k).run (S 0) = (k ()).run (S n) := by
  have key : ∀ (c lo : Nat), lo + c = n → ((ThM.forN c lo () fun i _ => b i) k).run (S lo) = (k ()).run (S n) := by
    intro c
    induction c with
    | zero => intro lo e; have : lo = n := by omega
              subst this; rfl
    | succ c ih =>
      intro lo e
      change (b lo fun s' => ThM.forN c (lo + 1) s' (fun i _ => b i) k).run (S lo) = _
      rw [h lo (by omega)]
      exact ih (lo + 1) (by omega)
  exact key (n - 0) 0 (by omega)

/-- a vector filled up to position `i` -/
def part [Inhabited α] (n i : Nat) (new : Nat → α) (v : List α) : List α := tab n fun j => if j < i then new j else gv v j

theorem part_zero [Inhabited α] {n : Nat} {new : Nat → α} {v : List α} (h : v.length = n) : part n 0 new v = v := by
  unfold part
  rw [← tab_gv' h]
  apply tab_congr
  intro i hi
  rw [if_neg (by omega), gv_tab hi]
theorem part_full [Inhabited α] {n : Nat} {new : Nat → α} {v : List α} : part n n new v = tab n new := by
  unfold part
  apply tab_congr
  intro i hi
  rw [if_pos hi]
theorem rd_part [Inhabited α] {n i : Nat} {new : Nat → α} {v : List α} (h : i < n) : rd (part n i new v) i = .ok (gv v i) := by
  unfold part
  rw [rd_tab h, if_neg (by omega)]
theorem wr_part [Inhabited α] {n i : Nat} {new : Nat → α} {v : List α} {x : α} (h : i < n) (hx : x = new i) :
    wr (part n i new v) i x = .ok (part n (i + 1) new v) := by
  subst hx
  unfold part
  refine wr_tab h ?_ ?_
  · rw [if_pos (by omega)]
  · intro j hj hne
    by_cases h1 : j < i
    · rw [if_pos h1, if_pos (by omega)]
    · rw [if_neg h1, if_neg (by omega)]

end

namespace Eom
open Arr
variable {α : Type} [Scalar α] {g : Grid α} {e : Eom α}

section upd
variable (s : Scratch α) (f p : Field α) (rh w : List α)

theorem up_fn : Function.update (memOf s f p rh) fn w = memOf s { f with n := w } p rh := by funext a; cases a <;> simp [Function.update, memOf]
theorem up_fl : Function.update (memOf s f p rh) fl w = memOf s { f with l := w } p rh := by funext a; cases a <;> simp [Function.update, memOf]
theorem up_fnp1 : Function.update (memOf s f p rh) fnp1 w = memOf s { f with np1 := w } p rh := by funext a; cases a <;> simp [Function.update, memOf]
theorem up_fk : Function.update (memOf s f p rh) fk w = memOf s { f with k := w } p rh := by funext a; cases a <;> simp [Function.update, memOf]
theorem up_pn : Function.update (memOf s f p rh) pn w = memOf s f { p with n := w } rh := by funext a; cases a <;> simp [Function.update, memOf]
theorem up_pl : Function.update (memOf s f p rh) pl w = memOf s f { p with l := w } rh := by funext a; cases a <;> simp [Function.update, memOf]
theorem up_pnp1 : Function.update (memOf s f p rh) pnp1 w = memOf s f { p with np1 := w } rh := by funext a; cases a <;> simp [Function.update, memOf]
theorem up_pk : Function.update (memOf s f p rh) .pk w = memOf s f { p with k := w } rh := by funext a; cases a <;> simp [Function.update, memOf]
theorem up_dr_f : Function.update (memOf s f p rh) dr_f w = memOf { s with dr_f := w } f p rh := by funext a; cases a <;> simp [Function.update, memOf]
theorem up_lap_f : Function.update (memOf s f p rh) lap_f w = memOf { s with lap_f := w } f p rh := by funext a; cases a <;> simp [Function.update, memOf]
theorem up_dr_p : Function.update (memOf s f p rh) dr_p w = memOf { s with dr_p := w } f p rh := by funext a; cases a <;> simp [Function.update, memOf]
theorem up_dr_dr_f : Function.update (memOf s f p rh) dr_dr_f w = memOf { s with dr_dr_f := w } f p rh := by funext a; cases a <;> simp [Function.update, memOf]
theorem up_dphi_f : Function.update (memOf s f p rh) dphi_f w = memOf { s with dphi_f := w } f p rh := by funext a; cases a <;> simp [Function.update, memOf]
theorem up_dphi_dr_f : Function.update (memOf s f p rh) dphi_dr_f w = memOf { s with dphi_dr_f := w } f p rh := by funext a; cases a <;> simp [Function.update, memOf]
theorem up_sphereX_f : Function.update (memOf s f p rh) sphereX_f w = memOf { s with sphereX_f := w } f p rh := by funext a; cases a <;> simp [Function.update, memOf]
theorem up_rho : Function.update (memOf s f p rh) rho w = memOf s f p w := by funext a; cases a <;> simp [Function.update, memOf]

end upd

/-- level loops: the four vectors `l`, `np1` of both fields filled up to `i` -/
def lvS (s : Scratch α) (f p : Field α) (rh : List α) (n : Nat) (a b c d : Nat → α) (i : Nat) : Mem Arr α :=
  memOf s { f with l := part n i a f.l, np1 := part n i b f.np1 } { p with l := part n i c p.l, np1 := part n i d p.np1 } rh

theorem run_level_1 (he : e.Wf0 g) {f p : Field α} (hf : FieldOk f g.d.total) (hp : FieldOk p g.d.total) (s : Scratch α) (rh : List α) (k) :
    ((e.set_level_T 1) k).run (memOf s f p rh) = (k ()).run (memOf s { f with l := f.n } { p with l := p.n } rh) := by
  obtain ⟨f1, f2, f3, f4, f5⟩ := hf
  obtain ⟨p1, p2, p3, p4, p5⟩ := hp
  unfold set_level_T
  rw [if_pos rfl, he.n_eq]
  have h := run_parFor_closed (n := g.d.total) (body := fun i => do
    let x ← ThM.load fn i
    ThM.store fl i x
    let x ← ThM.load pn i
    ThM.store pl i x) (fun i => memOf s { f with l := part g.d.total i (gv f.n) f.l } { p with l := part g.d.total i (gv p.n) p.l } rh) (by
      intro i hi
      rw [run_load]
      dsimp only [memOf]
      rw [rd_ok (by omega), ok_bind', run_store]
      dsimp only [memOf]
      rw [wr_part hi rfl, ok_bind', up_fl, run_load]
      dsimp only [memOf]
      rw [rd_ok (by omega), ok_bind', run_store']
      dsimp only [memOf]
      rw [wr_part hi rfl, ok_bind', up_pl, run_done]) k
  simp only [part_zero f2, part_zero p2, part_full, tab_gv' f1, tab_gv' p1] at h
  exact h

theorem run_level_2 (he : e.Wf0 g) {f p : Field α} (hf : FieldOk f g.d.total) (hp : FieldOk p g.d.total) (s : Scratch α) (rh : List α) (k) :
    ((e.set_level_T 2) k).run (memOf s f p rh) = (k ()).run (memOf s
      { f with l := ax g.d.total f.n (lit (1/2) * e.dt) f.k, np1 := ax g.d.total f.n (e.dt / 6) f.k }
      { p with l := ax g.d.total p.n (lit (1/2) * e.dt) p.k, np1 := ax g.d.total p.n (e.dt / 6) p.k } rh) := by
  obtain ⟨f1, f2, f3, f4, f5⟩ := hf
  obtain ⟨p1, p2, p3, p4, p5⟩ := hp
  unfold set_level_T
  rw [if_neg (by omega), if_pos rfl, he.n_eq]
  have h := run_parFor_closed (n := g.d.total) (body := fun i => do
    let x ← ThM.load fn i
    let y ← ThM.load fk i
    ThM.store fl i (x + lit (1/2) * e.dt * y)
    let x ← ThM.load pn i
    let y ← ThM.load .pk i
    ThM.store pl i (x + lit (1/2) * e.dt * y)
    let x ← ThM.load fn i
    let y ← ThM.load fk i
    ThM.store fnp1 i (x + (e.dt / 6) * y)
    let x ← ThM.load pn i
    let y ← ThM.load .pk i
    ThM.store pnp1 i (x + (e.dt / 6) * y)) (lvS s f p rh g.d.total
      (fun i => gv f.n i + lit (1/2) * e.dt * gv f.k i) (fun i => gv f.n i + (e.dt / 6) * gv f.k i)
      (fun i => gv p.n i + lit (1/2) * e.dt * gv p.k i) (fun i => gv p.n i + (e.dt / 6) * gv p.k i)) (by
      intro i hi
      have q1 : rd f.n i = .ok (gv f.n i) := rd_ok (by omega)
      have q2 : rd f.k i = .ok (gv f.k i) := rd_ok (by omega)
      have q3 : rd p.n i = .ok (gv p.n i) := rd_ok (by omega)
      have q4 : rd p.k i = .ok (gv p.k i) := rd_ok (by omega)
      unfold lvS
      rw [run_load]; dsimp only [memOf]; rw [q1, ok_bind', run_load]; dsimp only [memOf]; rw [q2, ok_bind', run_store]; dsimp only [memOf]
      rw [wr_part hi rfl, ok_bind', up_fl]
      rw [run_load]; dsimp only [memOf]; rw [q3, ok_bind', run_load]; dsimp only [memOf]; rw [q4, ok_bind', run_store]; dsimp only [memOf]
      rw [wr_part hi rfl, ok_bind', up_pl]
      rw [run_load]; dsimp only [memOf]; rw [q1, ok_bind', run_load]; dsimp only [memOf]; rw [q2, ok_bind', run_store]; dsimp only [memOf]
      rw [wr_part hi rfl, ok_bind', up_fnp1]
      rw [run_load]; dsimp only [memOf]; rw [q3, ok_bind', run_load]; dsimp only [memOf]; rw [q4, ok_bind', run_store']; dsimp only [memOf]
      rw [wr_part hi rfl, ok_bind', up_pnp1, run_done]) k
  simp only [lvS, part_zero f2, part_zero p2, part_zero f3, part_zero p3, part_full] at h
  exact h

theorem run_level_3 (he : e.Wf0 g) {f p : Field α} (hf : FieldOk f g.d.total) (hp : FieldOk p g.d.total) (s : Scratch α) (rh : List α) (k) :
    ((e.set_level_T 3) k).run (memOf s f p rh) = (k ()).run (memOf s
      { f with l := ax g.d.total f.n (lit (1/2) * e.dt) f.k, np1 := ax g.d.total f.np1 (e.dt / 3) f.k }
      { p with l := ax g.d.total p.n (lit (1/2) * e.dt) p.k, np1 := ax g.d.total p.np1 (e.dt / 3) p.k } rh) := by
  obtain ⟨f1, f2, f3, f4, f5⟩ := hf
  obtain ⟨p1, p2, p3, p4, p5⟩ := hp
  unfold set_level_T
  rw [if_neg (by omega), if_neg (by omega), if_pos rfl, he.n_eq]
  have h := run_parFor_closed (n := g.d.total) (body := fun i => do
    let x ← ThM.load fn i
    let y ← ThM.load fk i
    ThM.store fl i (x + lit (1/2) * e.dt * y)
    let x ← ThM.load pn i
    let y ← ThM.load .pk i
    ThM.store pl i (x + lit (1/2) * e.dt * y)
    let y ← ThM.load fk i
    let x ← ThM.load fnp1 i
    ThM.store fnp1 i (x + (e.dt / 3) * y)
    let y ← ThM.load .pk i
    let x ← ThM.load pnp1 i
    ThM.store pnp1 i (x + (e.dt / 3) * y)) (lvS s f p rh g.d.total
      (fun i => gv f.n i + lit (1/2) * e.dt * gv f.k i) (fun i => gv f.np1 i + (e.dt / 3) * gv f.k i)
      (fun i => gv p.n i + lit (1/2) * e.dt * gv p.k i) (fun i => gv p.np1 i + (e.dt / 3) * gv p.k i)) (by
      intro i hi
      have q1 : rd f.n i = .ok (gv f.n i) := rd_ok (by omega)
      have q2 : rd f.k i = .ok (gv f.k i) := rd_ok (by omega)
      have q3 : rd p.n i = .ok (gv p.n i) := rd_ok (by omega)
      have q4 : rd p.k i = .ok (gv p.k i) := rd_ok (by omega)
      unfold lvS
      rw [run_load]; dsimp only [memOf]; rw [q1, ok_bind', run_load]; dsimp only [memOf]; rw [q2, ok_bind', run_store]; dsimp only [memOf]
      rw [wr_part hi rfl, ok_bind', up_fl]
      rw [run_load]; dsimp only [memOf]; rw [q3, ok_bind', run_load]; dsimp only [memOf]; rw [q4, ok_bind', run_store]; dsimp only [memOf]
      rw [wr_part hi rfl, ok_bind', up_pl]
      rw [run_load]; dsimp only [memOf]; rw [q2, ok_bind', run_load]; dsimp only [memOf]; rw [rd_part hi, ok_bind', run_store]; dsimp only [memOf]
      rw [wr_part hi rfl, ok_bind', up_fnp1]
      rw [run_load]; dsimp only [memOf]; rw [q4, ok_bind', run_load]; dsimp only [memOf]; rw [rd_part hi, ok_bind', run_store']; dsimp only [memOf]
      rw [wr_part hi rfl, ok_bind', up_pnp1, run_done]) k
  simp only [lvS, part_zero f2, part_zero p2, part_zero f3, part_zero p3, part_full] at h
  exact h

theorem run_level_4 (he : e.Wf0 g) {f p : Field α} (hf : FieldOk f g.d.total) (hp : FieldOk p g.d.total) (s : Scratch α) (rh : List α) (k) :
    ((e.set_level_T 4) k).run (memOf s f p rh) = (k ()).run (memOf s
      { f with l := ax g.d.total f.n e.dt f.k, np1 := ax g.d.total f.np1 (e.dt / 3) f.k }
      { p with l := ax g.d.total p.n e.dt p.k, np1 := ax g.d.total p.np1 (e.dt / 3) p.k } rh) := by
  obtain ⟨f1, f2, f3, f4, f5⟩ := hf
  obtain ⟨p1, p2, p3, p4, p5⟩ := hp
  unfold set_level_T
  rw [if_neg (by omega), if_neg (by omega), if_neg (by omega), if_pos rfl, he.n_eq]
  have h := run_parFor_closed (n := g.d.total) (body := fun i => do
    let x ← ThM.load fn i
    let y ← ThM.load fk i
    ThM.store fl i (x + e.dt * y)
    let x ← ThM.load pn i
    let y ← ThM.load .pk i
    ThM.store pl i (x + e.dt * y)
    let y ← ThM.load fk i
    let x ← ThM.load fnp1 i
    ThM.store fnp1 i (x + (e.dt / 3) * y)
    let y ← ThM.load .pk i
    let x ← ThM.load pnp1 i
    ThM.store pnp1 i (x + (e.dt / 3) * y)) (lvS s f p rh g.d.total
      (fun i => gv f.n i + e.dt * gv f.k i) (fun i => gv f.np1 i + (e.dt / 3) * gv f.k i)
      (fun i => gv p.n i + e.dt * gv p.k i) (fun i => gv p.np1 i + (e.dt / 3) * gv p.k i)) (by
      intro i hi
      have q1 : rd f.n i = .ok (gv f.n i) := rd_ok (by omega)
      have q2 : rd f.k i = .ok (gv f.k i) := rd_ok (by omega)
      have q3 : rd p.n i = .ok (gv p.n i) := rd_ok (by omega)
      have q4 : rd p.k i = .ok (gv p.k i) := rd_ok (by omega)
      unfold lvS
      rw [run_load]; dsimp only [memOf]; rw [q1, ok_bind', run_load]; dsimp only [memOf]; rw [q2, ok_bind', run_store]; dsimp only [memOf]
      rw [wr_part hi rfl, ok_bind', up_fl]
      rw [run_load]; dsimp only [memOf]; rw [q3, ok_bind', run_load]; dsimp only [memOf]; rw [q4, ok_bind', run_store]; dsimp only [memOf]
      rw [wr_part hi rfl, ok_bind', up_pl]
      rw [run_load]; dsimp only [memOf]; rw [q2, ok_bind', run_load]; dsimp only [memOf]; rw [rd_part hi, ok_bind', run_store]; dsimp only [memOf]
      rw [wr_part hi rfl, ok_bind', up_fnp1]
      rw [run_load]; dsimp only [memOf]; rw [q4, ok_bind', run_load]; dsimp only [memOf]; rw [rd_part hi, ok_bind', run_store']; dsimp only [memOf]
      rw [wr_part hi rfl, ok_bind', up_pnp1, run_done]) k
  simp only [lvS, part_zero f2, part_zero p2, part_zero f3, part_zero p3, part_full] at h
  exact h

theorem run_level_5 (he : e.Wf0 g) {f p : Field α} (hf : FieldOk f g.d.total) (hp : FieldOk p g.d.total) (s : Scratch α) (rh : List α) (k) :
    ((e.set_level_T 5) k).run (memOf s f p rh) = (k ()).run (memOf s
      { f with np1 := ax g.d.total f.np1 (e.dt / 6) f.k } { p with np1 := ax g.d.total p.np1 (e.dt / 6) p.k } rh) := by
  obtain ⟨f1, f2, f3, f4, f5⟩ := hf
  obtain ⟨p1, p2, p3, p4, p5⟩ := hp
  unfold set_level_T
  rw [if_neg (by omega), if_neg (by omega), if_neg (by omega), if_neg (by omega), if_pos rfl, he.n_eq]
  have h := run_parFor_closed (n := g.d.total) (body := fun i => do
    let y ← ThM.load fk i
    let x ← ThM.load fnp1 i
    ThM.store fnp1 i (x + (e.dt / 6) * y)
    let y ← ThM.load .pk i
    let x ← ThM.load pnp1 i
    ThM.store pnp1 i (x + (e.dt / 6) * y)) (fun i => memOf s
      { f with np1 := part g.d.total i (fun i => gv f.np1 i + (e.dt / 6) * gv f.k i) f.np1 }
      { p with np1 := part g.d.total i (fun i => gv p.np1 i + (e.dt / 6) * gv p.k i) p.np1 } rh) (by
      intro i hi
      have q2 : rd f.k i = .ok (gv f.k i) := rd_ok (by omega)
      have q4 : rd p.k i = .ok (gv p.k i) := rd_ok (by omega)
      rw [run_load]; dsimp only [memOf]; rw [q2, ok_bind', run_load]; dsimp only [memOf]; rw [rd_part hi, ok_bind', run_store]; dsimp only [memOf]
      rw [wr_part hi rfl, ok_bind', up_fnp1]
      rw [run_load]; dsimp only [memOf]; rw [q4, ok_bind', run_load]; dsimp only [memOf]; rw [rd_part hi, ok_bind', run_store']; dsimp only [memOf]
      rw [wr_part hi rfl, ok_bind', up_pnp1, run_done]) k
  simp only [part_zero f3, part_zero p3, part_full] at h
  exact h

/-- one grid operator as a section -/
theorem run_simW {a : Arr} {p : ThM Arr α Unit} {F : Mem Arr α → List α → Exec (List α)} (h : SimW a p F) {m : Mem Arr α} {w : List α}
    (hF : F m (m a) = .ok w) (k) : (p k).run m = (k ()).run (Function.update m a w) := by
  rw [h k m, hF]; rfl

theorem run_k_sections (h : g.Wf) (J : Junk (Cx α)) {f p : Field α} (f2 : f.l.length = g.d.total) (p2 : p.l.length = g.d.total)
    {s : Scratch α} (hs : ScrOk s g.d.total) (rh : List α) (k) :
    ((sections_T g J fl pl) k).run (memOf s f p rh) = (k ()).run (memOf (scrJ g J f.l p.l) f p rh) := by
  obtain ⟨s1, s2, s3, s4, s5, s6, s7⟩ := hs
  unfold sections_T
  rw [run_sections]
  simp only [List.foldlM_cons, List.foldlM_nil]
  have r1 := run_simW (Grid.simW_perLine (g := g) (v := fl) (dv := dr_f) (by simp) g.opr) (m := memOf s f p rh) (w := g.prP f.l) (h.set_partial_r_eq f2 s1) (fun _ => .done)
  rw [up_dr_f] at r1
  have r2 := run_simW (Grid.simW_perLine (g := g) (v := pl) (dv := dr_p) (by simp) g.opr) (m := memOf { s with dr_f := g.prP f.l } f p rh) (w := g.prP p.l) (h.set_partial_r_eq p2 s3) (fun _ => .done)
  rw [up_dr_p] at r2
  have r3 := run_simW (Grid.simW_perLine (g := g) (v := fl) (dv := dr_dr_f) (by simp) g.op2r)
    (m := memOf { s with dr_f := g.prP f.l, dr_p := g.prP p.l } f p rh) (w := g.p2rP f.l) (h.set_partial2_r_eq f2 s4) (fun _ => .done)
  rw [up_dr_dr_f] at r3
  have r4 := run_simW (Grid.simW_perShell (g := g) (v := fl) (dv := dphi_f) (by simp) fun k => g.sphere.partial_phi ((J.sub 0).sub k))
    (m := memOf { s with dr_f := g.prP f.l, dr_p := g.prP p.l, dr_dr_f := g.p2rP f.l } f p rh) (w := g.pphiP f.l) (h.set_partial_phi_eq (J.sub 0) f2 s5)
    (fun _ => g.set_partial_r_T dphi_f dphi_dr_f fun _ => .done)
  rw [up_dphi_f] at r4
  have r4' := run_simW (Grid.simW_perLine (g := g) (v := dphi_f) (dv := dphi_dr_f) (by simp) g.opr)
    (m := memOf { s with dr_f := g.prP f.l, dr_p := g.prP p.l, dr_dr_f := g.p2rP f.l, dphi_f := g.pphiP f.l } f p rh)
    (w := g.prP (g.pphiP f.l)) (h.set_partial_r_eq (v := g.pphiP f.l) (by simp) s6) (fun _ => .done)
  rw [up_dphi_dr_f] at r4'
  have r5 := run_simW (Grid.simW_perShell (g := g) (v := fl) (dv := sphereX_f) (by simp) fun k => g.sphere.sphereX ((J.sub 1).sub k))
    (m := memOf { s with dr_f := g.prP f.l, dr_p := g.prP p.l, dr_dr_f := g.p2rP f.l, dphi_f := g.pphiP f.l, dphi_dr_f := g.prP (g.pphiP f.l) } f p rh) (w := g.psphXJ (J.sub 1) f.l) (h.set_sphereX_junk_eq (J.sub 1) f2 s7) (fun _ => .done)
  rw [up_sphereX_f] at r5
  have r6 := run_simW (Grid.simW_perShell (g := g) (v := fl) (dv := lap_f) (by simp) fun k => g.sphere.laplace_beltrami ((J.sub 2).sub k))
    (m := memOf { s with dr_f := g.prP f.l, dr_p := g.prP p.l, dr_dr_f := g.p2rP f.l, dphi_f := g.pphiP f.l, dphi_dr_f := g.prP (g.pphiP f.l), sphereX_f := g.psphXJ (J.sub 1) f.l } f p rh) (w := g.plapP f.l) (h.set_spherical_lap_eq (J.sub 2) f2 s2) (fun _ => .done)
  rw [up_lap_f] at r6
  rw [show (g.set_partial_r_T fl dr_f fun _ => Th.done).run (memOf s f p rh) = _ from r1, run_done, ok_bind,
    show (g.set_partial_r_T pl dr_p fun _ => Th.done).run _ = _ from r2, run_done, ok_bind,
    show (g.set_partial2_r_T fl dr_dr_f fun _ => Th.done).run _ = _ from r3, run_done, ok_bind, run_bind,
    show (g.set_partial_phi_T (J.sub 0) fl dphi_f _).run _ = _ from r4,
    show (g.set_partial_r_T dphi_f dphi_dr_f fun _ => Th.done).run _ = _ from r4', run_done, ok_bind,
    show (g.set_sphereX_T (J.sub 1) fl sphereX_f fun _ => Th.done).run _ = _ from r5, run_done, ok_bind,
    show (g.set_spherical_lap_T (J.sub 2) fl lap_f fun _ => Th.done).run _ = _ from r6, run_done, ok_bind]
  rfl

theorem run_k_loop (he : e.Wf0 g) {s : Scratch α} (hs : ScrOk s g.d.total) {f p : Field α} (f2 : f.l.length = g.d.total) (p2 : p.l.length = g.d.total)
    (f4 : f.k.length = g.d.total) (p4 : p.k.length = g.d.total) (rh : List α) (k) :
    ((ThM.forT 0 g.d.total () fun i _ => (do
      let fi ← ThM.load fl i
      let pi ← ThM.load pl i
      let c ← ThM.lift (rd e.coef i)
      let a ← ThM.load dr_f i
      let b ← ThM.load dr_p i
      let c2 ← ThM.load dr_dr_f i
      let q ← ThM.load dphi_f i
      let d ← ThM.load dphi_dr_f i
      let x ← ThM.load sphereX_f i
      let l ← ThM.load lap_f i
      ThM.store fk i pi
      ThM.store .pk i (e.pk c fi pi a b c2 q d x l) : ThM Arr α Unit)) k).run (memOf s f p rh) =
      (k ()).run (memOf s { f with k := p.l } { p with k := e.pkS g.d.total s f.l p.l } rh) := by
  obtain ⟨s1, s2, s3, s4, s5, s6, s7⟩ := hs
  have hc := he.coef
  have hl := run_forT_closed (n := g.d.total) (b := fun i => do
    let fi ← ThM.load fl i
    let pi ← ThM.load pl i
    let c ← ThM.lift (rd e.coef i)
    let a ← ThM.load dr_f i
    let b ← ThM.load dr_p i
    let c2 ← ThM.load dr_dr_f i
    let q ← ThM.load dphi_f i
    let d ← ThM.load dphi_dr_f i
    let x ← ThM.load sphereX_f i
    let l ← ThM.load lap_f i
    ThM.store fk i pi
    ThM.store .pk i (e.pk c fi pi a b c2 q d x l)) (fun i => memOf s { f with k := part g.d.total i (gv p.l) f.k }
      { p with k := part g.d.total i (gv (e.pkS g.d.total s f.l p.l)) p.k } rh) (by
      intro i hi k
      rw [run_load]; dsimp only [memOf]; rw [rd_ok (by omega), ok_bind', run_load]; dsimp only [memOf]
      rw [rd_ok (by omega), ok_bind', run_lift, rd_ok (by omega), ok_bind', run_load]; dsimp only [memOf]
      rw [rd_ok (by omega), ok_bind', run_load]; dsimp only [memOf]
      rw [rd_ok (by omega), ok_bind', run_load]; dsimp only [memOf]
      rw [rd_ok (by omega), ok_bind', run_load]; dsimp only [memOf]
      rw [rd_ok (by omega), ok_bind', run_load]; dsimp only [memOf]
      rw [rd_ok (by omega), ok_bind', run_load]; dsimp only [memOf]
      rw [rd_ok (by omega), ok_bind', run_load]; dsimp only [memOf]
      rw [rd_ok (by omega), ok_bind', run_store]; dsimp only [memOf]
      rw [wr_part hi rfl, ok_bind', up_fk, run_store']; dsimp only [memOf]
      rw [wr_part hi (by unfold pkS; rw [gv_tab hi]), ok_bind', up_pk]) k
  simp only [part_zero f4, part_zero p4, part_full, tab_gv' p2, tab_gv' (pkS_length g.d.total s f.l p.l)] at hl
  exact hl

theorem run_k (h : g.Wf) (he : e.Wf0 g) (J : Junk (Cx α)) {f p : Field α} (hf : FieldOk f g.d.total) (hp : FieldOk p g.d.total)
    {s : Scratch α} (hs : ScrOk s g.d.total) (rh : List α) (k) :
    ((e.set_k_T g J) k).run (memOf s f p rh) =
      (k ()).run (memOf (scrJ g J f.l p.l) { f with k := p.l } { p with k := e.rhsJ g J f.l p.l } rh) := by
  obtain ⟨f1, f2, f3, f4, f5⟩ := hf
  obtain ⟨p1, p2, p3, p4, p5⟩ := hp
  unfold set_k_T
  rw [run_size, run_lift_ok (cassert_true _ _ (by simp [memOf, f2, he.n_eq])), run_size,
    run_lift_ok (cassert_true _ _ (by simp [memOf, p2, he.n_eq])), run_size,
    run_lift_ok (cassert_true _ _ (by simp [memOf, f4, he.n_eq])), run_size,
    run_lift_ok (cassert_true _ _ (by simp [memOf, p4, he.n_eq])), run_bind, run_k_sections h J f2 p2 hs, he.n_eq]
  exact run_k_loop he (scrJ_ok J _ _) f2 p2 f4 p4 rh k

theorem run_rho_loop (he : e.Wf0 g) (J : Junk (Cx α)) {f p : Field α} (f3 : f.np1.length = g.d.total) (p3 : p.np1.length = g.d.total)
    {s : Scratch α} {rh : List α} (hr : rh.length = g.d.total) (k) :
    ((ThM.forT 0 g.d.total () fun i _ => (do
      let fi ← ThM.load fnp1 i
      let pi ← ThM.load pnp1 i
      let c ← ThM.lift (rd e.coef i)
      let a ← ThM.load dr_f i
      let q ← ThM.load dphi_f i
      let x ← ThM.load sphereX_f i
      ThM.store rho i (e.rhoVal c fi pi a q x) : ThM Arr α Unit)) k).run
        (memOf { s with dr_f := g.prP f.np1, dphi_f := g.pphiP f.np1, sphereX_f := g.psphXJ (J.sub 1) f.np1 } f p rh) =
      (k ()).run (memOf { s with dr_f := g.prP f.np1, dphi_f := g.pphiP f.np1, sphereX_f := g.psphXJ (J.sub 1) f.np1 } f p (e.rhoJ g J f.np1 p.np1)) := by
  have hc := he.coef
  have hl := run_forT_closed (n := g.d.total) (b := fun i => do
    let fi ← ThM.load fnp1 i
    let pi ← ThM.load pnp1 i
    let c ← ThM.lift (rd e.coef i)
    let a ← ThM.load dr_f i
    let q ← ThM.load dphi_f i
    let x ← ThM.load sphereX_f i
    ThM.store rho i (e.rhoVal c fi pi a q x)) (fun i => memOf { s with dr_f := g.prP f.np1, dphi_f := g.pphiP f.np1, sphereX_f := g.psphXJ (J.sub 1) f.np1 } f p
      (part g.d.total i (gv (e.rhoJ g J f.np1 p.np1)) rh)) (by
      intro i hi k
      rw [run_load]; dsimp only [memOf]; rw [rd_ok (by omega), ok_bind', run_load]; dsimp only [memOf]
      rw [rd_ok (by omega), ok_bind', run_lift, rd_ok (by omega), ok_bind', run_load]; dsimp only [memOf]
      rw [rd_ok (by simp; omega), ok_bind', run_load]; dsimp only [memOf]
      rw [rd_ok (by simp; omega), ok_bind', run_load]; dsimp only [memOf]
      rw [rd_ok (by simp; omega), ok_bind', run_store']; dsimp only [memOf]
      rw [wr_part hi (by unfold rhoJ; rw [gv_tab hi]), ok_bind', up_rho]) k
  simp only [part_zero hr, part_full, tab_gv' (rhoJ_length (e := e) (g := g) J f.np1 p.np1)] at hl
  exact hl

theorem run_rho (h : g.Wf) (he : e.Wf0 g) (J : Junk (Cx α)) {f p : Field α} (hf : FieldOk f g.d.total) (hp : FieldOk p g.d.total)
    {s : Scratch α} (hs : ScrOk s g.d.total) {rh : List α} (hr : rh.length = g.d.total) (k) :
    ((e.set_rho_T g J) k).run (memOf s f p rh) =
      (k ()).run (memOf { s with dr_f := g.prP f.np1, dphi_f := g.pphiP f.np1, sphereX_f := g.psphXJ (J.sub 1) f.np1 } f p (e.rhoJ g J f.np1 p.np1)) := by
  obtain ⟨f1, f2, f3, f4, f5⟩ := hf
  obtain ⟨p1, p2, p3, p4, p5⟩ := hp
  obtain ⟨s1, s2, s3, s4, s5, s6, s7⟩ := hs
  unfold set_rho_T
  rw [run_size, run_lift_ok (cassert_true _ _ (by simp [memOf, f3, he.n_eq])), run_size,
    run_lift_ok (cassert_true _ _ (by simp [memOf, p3, he.n_eq])), run_size,
    run_lift_ok (cassert_true _ _ (by simp [memOf, hr, he.n_eq])), run_bind]
  rw [run_sections]
  simp only [List.foldlM_cons, List.foldlM_nil]
  have r1 := run_simW (Grid.simW_perLine (g := g) (v := fnp1) (dv := dr_f) (by simp) g.opr) (m := memOf s f p rh) (w := g.prP f.np1) (h.set_partial_r_eq f3 s1) (fun _ => .done)
  rw [up_dr_f] at r1
  have r4 := run_simW (Grid.simW_perShell (g := g) (v := fnp1) (dv := dphi_f) (by simp) fun k => g.sphere.partial_phi ((J.sub 0).sub k))
    (m := memOf { s with dr_f := g.prP f.np1 } f p rh) (w := g.pphiP f.np1) (h.set_partial_phi_eq (J.sub 0) f3 s5) (fun _ => .done)
  rw [up_dphi_f] at r4
  have r5 := run_simW (Grid.simW_perShell (g := g) (v := fnp1) (dv := sphereX_f) (by simp) fun k => g.sphere.sphereX ((J.sub 1).sub k))
    (m := memOf { s with dr_f := g.prP f.np1, dphi_f := g.pphiP f.np1 } f p rh) (w := g.psphXJ (J.sub 1) f.np1) (h.set_sphereX_junk_eq (J.sub 1) f3 s7) (fun _ => .done)
  rw [up_sphereX_f] at r5
  rw [show (g.set_partial_r_T fnp1 dr_f fun _ => Th.done).run (memOf s f p rh) = _ from r1, run_done, ok_bind,
    show (g.set_partial_phi_T (J.sub 0) fnp1 dphi_f fun _ => Th.done).run _ = _ from r4, run_done, ok_bind,
    show (g.set_sphereX_T (J.sub 1) fnp1 sphereX_f fun _ => Th.done).run _ = _ from r5, run_done, ok_bind]
  change Except.bind (.ok (memOf { s with dr_f := g.prP f.np1, dphi_f := g.pphiP f.np1, sphereX_f := g.psphXJ (J.sub 1) f.np1 } f p rh)) _ = _
  rw [ok_bind', he.n_eq]
  exact run_rho_loop he J f3 p3 hr k

/-- the whole step, pragmas ignored, is the sequential model's step -/
theorem run_time_step (h : g.Wf) (he : e.Wf0 g) (J : Junk (Cx α)) {f p : Field α} (hf : FieldOk f g.d.total) (hp : FieldOk p g.d.total) (rh : List α) :
    ∃ e' f' p', e.time_step g J f p = .ok (e', f', p') ∧
      ((e.time_step_T g J f.size p.size).toTh).run (memOf e.scr f p rh) = .ok (memOf e'.scr f' p' rh) := by
  rw [time_step_junk_eq h he J hf hp]
  refine ⟨_, _, _, rfl, ?_⟩
  obtain ⟨f1, f2, f3, f4, f5⟩ := hf
  obtain ⟨p1, p2, p3, p4, p5⟩ := hp
  unfold time_step_T ThM.toTh
  rw [run_lift_ok (cassert_true _ _ (by simp [f5, he.n_eq])), run_lift_ok (cassert_true _ _ (by simp [p5, he.n_eq])), run_bind, run_sections]
  simp only [List.foldlM_cons, List.foldlM_nil]
  have r1 := run_simW (Grid.simW_filter (g := g) fn (J.sub 0)) (m := memOf e.scr f p rh) (w := g.filtP f.n) (h.filter_eq (J.sub 0) f1) (fun _ => .done)
  rw [up_fn] at r1
  have r2 := run_simW (Grid.simW_filter (g := g) pn (J.sub 1)) (m := memOf e.scr { f with n := g.filtP f.n } p rh) (w := g.filtP p.n) (h.filter_eq (J.sub 1) p1) (fun _ => .done)
  rw [up_pn] at r2
  rw [r1, run_done, ok_bind, r2, run_done, ok_bind]
  change Except.bind (.ok (memOf e.scr { f with n := g.filtP f.n } { p with n := g.filtP p.n } rh)) _ = _
  rw [ok_bind']
  have hF : (g.filtP f.n).length = g.d.total := by simp
  have hP : (g.filtP p.n).length = g.d.total := by simp
  generalize g.filtP f.n = F at hF ⊢
  generalize g.filtP p.n = P at hP ⊢
  have fo : ∀ {a : Field α}, a.n.length = g.d.total → a.l.length = g.d.total → a.np1.length = g.d.total →
      a.k.length = g.d.total → a.size = g.d.total → FieldOk a g.d.total := fun a b c d e => ⟨a, b, c, d, e⟩
  rw [run_bind, run_level_1 he (by apply fo <;> assumption) (by apply fo <;> assumption)]
  dsimp only
  rw [run_bind, run_k h he _ (by apply fo <;> assumption) (by apply fo <;> assumption) he.scr]
  dsimp only
  rw [run_bind, run_level_2 he (by apply fo <;> first | assumption | simp) (by apply fo <;> first | assumption | simp)]
  dsimp only
  rw [run_bind, run_k h he _ (by apply fo <;> first | assumption | simp) (by apply fo <;> first | assumption | simp) (scrJ_ok _ _ _)]
  dsimp only
  rw [run_bind, run_level_3 he (by apply fo <;> first | assumption | simp) (by apply fo <;> first | assumption | simp)]
  dsimp only
  rw [run_bind, run_k h he _ (by apply fo <;> first | assumption | simp) (by apply fo <;> first | assumption | simp) (scrJ_ok _ _ _)]
  dsimp only
  rw [run_bind, run_level_4 he (by apply fo <;> first | assumption | simp) (by apply fo <;> first | assumption | simp)]
  dsimp only
  rw [run_bind, run_k h he _ (by apply fo <;> first | assumption | simp) (by apply fo <;> first | assumption | simp) (scrJ_ok _ _ _)]
  dsimp only
  rw [run_level_5 he (by apply fo <;> first | assumption | simp) (by apply fo <;> first | assumption | simp), run_done]
  rfl

/-! ### race freedom -/

theorem rf_level (level : Int) : RFM (e.set_level_T level) := by
  unfold set_level_T
  have pw : ∀ (body : Nat → ThM Arr α Unit), (∀ j, RFM (body j) ∧ FpM (fun _ p => p = j) (fun _ p => p = j) (body j)) →
      RFM (ThM.parFor e.n body) := fun body h => RFM.pointwise (fun j => (h j).1) fun j => (h j).2
  split_ifs
  all_goals first | exact RFM.pure _ | refine pw _ fun j => ⟨?_, ?_⟩
  all_goals repeat' first
    | exact RFM.load _ _
    | exact RFM.store _ _ _
    | exact FpM.load rfl
    | exact FpM.store rfl
    | refine RFM.bind ?_ fun _ => ?_
    | refine FpM.bind ?_ fun _ => ?_


/-- what section `j` of `set_k` reads -/
def secR (f p : Arr) : Nat → Arr → Prop
  | 1, a => a = p
  | 3, a => a = f ∨ a = dphi_f
  | _, a => a = f
/-- what section `j` of `set_k` writes -/
def secW : Nat → Arr → Prop
  | 0, a => a = dr_f
  | 1, a => a = dr_p
  | 2, a => a = dr_dr_f
  | 3, a => a = dphi_f ∨ a = dphi_dr_f
  | 4, a => a = sphereX_f
  | _, a => a = lap_f

theorem rf_sections (h : g.d.Ok) (J : Junk (Cx α)) : RFM (sections_T g J fl pl) := by
  unfold sections_T
  refine RFM.sections (secR fl pl) secW ?_ ?_ ?_
  · intro j hj
    simp only [List.length_cons, List.length_nil] at hj
    have : j = 0 ∨ j = 1 ∨ j = 2 ∨ j = 3 ∨ j = 4 ∨ j = 5 := by omega
    rcases this with rfl | rfl | rfl | rfl | rfl | rfl
    · exact Grid.rf_perLine h (by simp)
    · exact Grid.rf_perLine h (by simp)
    · exact Grid.rf_perLine h (by simp)
    · change RFM (g.set_partial_phi_T (J.sub 0) fl dphi_f >>= fun _ => g.set_partial_r_T dphi_f dphi_dr_f)
      exact RFM.bind (Grid.rf_perShell h (by simp)) fun _ => Grid.rf_perLine h (by simp)
    · exact Grid.rf_perShell h (by simp)
    · exact Grid.rf_perShell h (by simp)
  · intro j hj
    simp only [List.length_cons, List.length_nil] at hj
    have : j = 0 ∨ j = 1 ∨ j = 2 ∨ j = 3 ∨ j = 4 ∨ j = 5 := by omega
    rcases this with rfl | rfl | rfl | rfl | rfl | rfl
    · exact Grid.fp_perLine (fun _ => rfl) fun _ => rfl
    · exact Grid.fp_perLine (fun _ => rfl) fun _ => rfl
    · exact Grid.fp_perLine (fun _ => rfl) fun _ => rfl
    · change FpM _ _ (g.set_partial_phi_T (J.sub 0) fl dphi_f >>= fun _ => g.set_partial_r_T dphi_f dphi_dr_f)
      exact FpM.bind (Grid.fp_perShell (fun _ => Or.inl rfl) fun _ => Or.inl rfl) fun _ =>
        Grid.fp_perLine (fun _ => Or.inr rfl) fun _ => Or.inr rfl
    · exact Grid.fp_perShell (fun _ => rfl) fun _ => rfl
    · exact Grid.fp_perShell (fun _ => rfl) fun _ => rfl
  · intro i j hi hj hij a
    simp only [List.length_cons, List.length_nil] at hi hj
    have e1 : i = 0 ∨ i = 1 ∨ i = 2 ∨ i = 3 ∨ i = 4 ∨ i = 5 := by omega
    have e2 : j = 0 ∨ j = 1 ∨ j = 2 ∨ j = 3 ∨ j = 4 ∨ j = 5 := by omega
    rcases e1 with rfl | rfl | rfl | rfl | rfl | rfl <;> rcases e2 with rfl | rfl | rfl | rfl | rfl | rfl <;>
      first
        | exact absurd rfl hij
        | (cases a <;> simp [secR, secW])

theorem rf_set_k (h : g.d.Ok) (J : Junk (Cx α)) : RFM (e.set_k_T g J) := by
  unfold set_k_T
  refine RFM.bind (RFM.size _) fun _ => RFM.bind (RFM.lift _) fun _ => RFM.bind (RFM.size _) fun _ => RFM.bind (RFM.lift _) fun _ =>
    RFM.bind (RFM.size _) fun _ => RFM.bind (RFM.lift _) fun _ => RFM.bind (RFM.size _) fun _ => RFM.bind (RFM.lift _) fun _ =>
    RFM.bind (rf_sections h J) fun _ => RFM.forT fun _ _ => ?_
  repeat' first
    | exact RFM.load _ _
    | exact RFM.store _ _ _
    | exact RFM.lift _
    | refine RFM.bind ?_ fun _ => ?_

theorem rf_filters (h : g.d.Ok) (J J' : Junk (Cx α)) : RFM (ThM.sections [g.filter_T J fn, g.filter_T J' pn] : ThM Arr α Unit) := by
  refine RFM.sections (fun j a => a = if j = 0 then fn else pn) (fun j a => a = if j = 0 then fn else pn) ?_ ?_ ?_
  · intro j hj
    simp only [List.length_cons, List.length_nil] at hj
    have : j = 0 ∨ j = 1 := by omega
    rcases this with rfl | rfl
    · exact Grid.rf_filter h
    · exact Grid.rf_filter h
  · intro j hj
    simp only [List.length_cons, List.length_nil] at hj
    have : j = 0 ∨ j = 1 := by omega
    rcases this with rfl | rfl
    · exact Grid.fp_filter (fun _ => rfl) fun _ => rfl
    · exact Grid.fp_filter (fun _ => rfl) fun _ => rfl
  · intro i j hi hj hij a
    simp only [List.length_cons, List.length_nil] at hi hj
    have e1 : i = 0 ∨ i = 1 := by omega
    have e2 : j = 0 ∨ j = 1 := by omega
    rcases e1 with rfl | rfl <;> rcases e2 with rfl | rfl <;>
      first
        | exact absurd rfl hij
        | (cases a <;> simp)

theorem rf_time_step (h : g.d.Ok) (J : Junk (Cx α)) (fs ps : Nat) : RFM (e.time_step_T g J fs ps) := by
  unfold time_step_T
  exact RFM.bind (RFM.lift _) fun _ => RFM.bind (RFM.lift _) fun _ => RFM.bind (rf_filters h _ _) fun _ =>
    RFM.bind (rf_level _) fun _ => RFM.bind (rf_set_k h _) fun _ =>
    RFM.bind (rf_level _) fun _ => RFM.bind (rf_set_k h _) fun _ =>
    RFM.bind (rf_level _) fun _ => RFM.bind (rf_set_k h _) fun _ =>
    RFM.bind (rf_level _) fun _ => RFM.bind (rf_set_k h _) fun _ => rf_level _

theorem rf_set_rho (h : g.d.Ok) (J : Junk (Cx α)) : RFM (e.set_rho_T g J) := by
  unfold set_rho_T
  refine RFM.bind (RFM.size _) fun _ => RFM.bind (RFM.lift _) fun _ => RFM.bind (RFM.size _) fun _ => RFM.bind (RFM.lift _) fun _ =>
    RFM.bind (RFM.size _) fun _ => RFM.bind (RFM.lift _) fun _ => RFM.bind ?_ fun _ => RFM.forT fun _ _ => ?_
  · refine RFM.sections (fun _ a => a = fnp1) (fun j a => a = if j = 0 then dr_f else if j = 1 then dphi_f else sphereX_f) ?_ ?_ ?_
    · intro j hj
      simp only [List.length_cons, List.length_nil] at hj
      have : j = 0 ∨ j = 1 ∨ j = 2 := by omega
      rcases this with rfl | rfl | rfl
      · exact Grid.rf_perLine h (by simp)
      · exact Grid.rf_perShell h (by simp)
      · exact Grid.rf_perShell h (by simp)
    · intro j hj
      simp only [List.length_cons, List.length_nil] at hj
      have : j = 0 ∨ j = 1 ∨ j = 2 := by omega
      rcases this with rfl | rfl | rfl
      · exact Grid.fp_perLine (fun _ => rfl) fun _ => rfl
      · exact Grid.fp_perShell (fun _ => rfl) fun _ => rfl
      · exact Grid.fp_perShell (fun _ => rfl) fun _ => rfl
    · intro i j hi hj hij a
      simp only [List.length_cons, List.length_nil] at hi hj
      have e1 : i = 0 ∨ i = 1 ∨ i = 2 := by omega
      have e2 : j = 0 ∨ j = 1 ∨ j = 2 := by omega
      rcases e1 with rfl | rfl | rfl <;> rcases e2 with rfl | rfl | rfl <;>
        first
          | exact absurd rfl hij
          | (cases a <;> simp)
  · repeat' first
      | exact RFM.load _ _
      | exact RFM.store _ _ _
      | exact RFM.lift _
      | refine RFM.bind ?_ fun _ => ?_

end Eom
end SFK
