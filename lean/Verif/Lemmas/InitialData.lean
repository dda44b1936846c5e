import Verif.Model.InitialData
import Verif.Lemmas.Grid
/-
Closed form of the initial-data routine (bitwise, for every scalar type).
-/
namespace SFK
open Scalar

namespace Dims
variable {α : Type} [Inhabited α] {d : Dims}

/-- A nest in the order R, phi, theta over the first `A` shells only. -/
theorem Ok.fill_xpt_upto (h : d.Ok) {A : Nat} (hA : A ≤ d.nx) {v : List α} (hv : v.length = d.total) (F : Nat → Nat → Nat → α)
    {b : Nat → Nat → Nat → List α → Exec (List α)}
    (hb : ∀ ix it ip w, ix < A → d.InR ix it ip → w.length = d.total → d.at3 w ix it ip = d.at3 v ix it ip →
      b ix ip it w = wr w (d.indx_R_th_ph ix it ip) (F ix it ip)) :
    forRange 0 A v (fun ix w => forRange 0 d.nphi w fun ip w => forRange 0 d.nlat w fun it w => b ix ip it w)
      = .ok (d.mk3 fun ix it ip => if ix < A then F ix it ip else d.at3 v ix it ip) := by
  have hin : ∀ i j k, i < A → j < d.nlat → k < d.nphi → d.InR i j k := fun i j k hi hj hk => ⟨by omega, hj, hk⟩
  rw [forRange3_wr (n := d.total) (fun ix ip it => d.pos3 ix it ip) (fun ix ip it => F ix it ip) d.dX d.dP d.dT hv
    (fun i k j hi hk hj => ⟨d.pos3_lt (hin i j k hi hj hk), d.dX_pos3 (hin i j k hi hj hk), d.dP_pos3 (hin i j k hi hj hk),
      d.dT_pos3 (hin i j k hi hj hk)⟩)
    (fun i k j w hi hk hj hw hg => by
      have hr := hin i j k hi hj hk
      rw [hb i j k w hi hr hw (by unfold at3; rw [h.indx3 hr]; exact hg), h.indx3 hr])]
  congr 1
  apply tab_congr
  intro k hk
  obtain ⟨h1, h2⟩ := d.dec3 hk
  by_cases hx : d.dX k < A
  · rw [if_pos ⟨hx, h1.2.2, h1.2.1, h2⟩]
    exact (if_pos hx).symm
  · rw [if_neg (by omega)]
    refine Eq.trans ?_ (if_neg hx).symm
    unfold at3
    rw [h.indx3 h1, h2]

end Dims

theorem wr_inv {α : Type} {v w : List α} {i : Nat} {x : α} (h : wr v i x = .ok w) : i < v.length ∧ w = v.set i x := by
  unfold wr at h
  split at h
  · cases h; exact ⟨by assumption, rfl⟩
  · cases h

/-- storing twice at the same place -/
theorem wr_wr {α : Type} {v w : List α} {i : Nat} {x : α} (h : wr v i x = .ok w) (y : α) :
    ∃ u, wr v i y = .ok u ∧ rd u i = .ok y ∧ wr u i x = .ok w ∧ rd w i = .ok x := by
  obtain ⟨h1, rfl⟩ := wr_inv h
  refine ⟨v.set i y, wr_ok h1, ?_, ?_, ?_⟩
  · simp [rd, h1]
  · rw [wr_ok (by simpa using h1)]
    simp
  · simp [rd, h1]

namespace ID
variable {α : Type} [Scalar α] {g : Grid α}

/-- unscaled initial field at a grid point, `y` the angular factor -/
def fV (P : ParamRec α) (g : Grid α) (ylm : List α) (ix it ip : Nat) : α :=
  profile P.rl P.ru (width P.rl P.ru) (Grid.R_to_r g.cl (g.radial.ptV ix)) * g.d.at2 ylm it ip

/-- unscaled initial velocity at a grid point -/
def pV (P : ParamRec α) (g : Grid α) (ylm : List α) (ix it ip : Nat) : α :=
  velocity P.direction (slope P.rl P.ru (width P.rl P.ru) (Grid.R_to_r g.cl (g.radial.ptV ix))) * g.d.at2 ylm it ip

/-- the loop computing the maximum -/
def maxLoop (A B C : Nat) (v : Nat → Nat → Nat → α) : Exec α :=
  forRange 0 A (0 : α) fun ix m => forRange 0 B m fun ip m => forRange 0 C m fun it m =>
    .ok (if lt m (fabs (v ix it ip)) then fabs (v ix it ip) else m)

theorem maxLoop_ok (A B C : Nat) (v : Nat → Nat → Nat → α) : ∃ m, maxLoop A B C v = .ok m := by
  obtain ⟨m, h, _⟩ := forRange_inv (lo := 0) (hi := A) (s := (0 : α))
    (b := fun ix m => forRange 0 B m fun ip m => forRange 0 C m fun it m =>
      .ok (if lt m (fabs (v ix it ip)) then fabs (v ix it ip) else m)) (fun _ _ => True) (Nat.zero_le _) trivial
    (fun ix m _ _ _ => by
      obtain ⟨m', h, _⟩ := forRange_inv (lo := 0) (hi := B) (s := m)
        (b := fun ip m => forRange 0 C m fun it m =>
          .ok (if lt m (fabs (v ix it ip)) then fabs (v ix it ip) else m)) (fun _ _ => True) (Nat.zero_le _) trivial
        (fun ip m _ _ _ => by
          obtain ⟨m', h, _⟩ := forRange_inv (lo := 0) (hi := C) (s := m)
            (b := fun it m => (.ok (if lt m (fabs (v ix it ip)) then fabs (v ix it ip) else m) : Exec α))
            (fun _ _ => True) (Nat.zero_le _) trivial (fun it m _ _ _ => ⟨_, rfl, trivial⟩)
          exact ⟨m', h, trivial⟩)
      exact ⟨m', h, trivial⟩)
  exact ⟨m, h⟩

theorem at2_rd (h : g.d.Ok) {v : List α} (hv : v.length = g.d.shell) {it ip : Nat} (ht : it < g.d.nlat) (hp : ip < g.d.nphi) :
    rd v (g.d.indx_th_ph it ip) = .ok (g.d.at2 v it ip) := by
  unfold Dims.at2
  rw [rd_ok]
  rw [hv, h.indx2 ht hp]
  exact g.d.pos2_lt ht hp

theorem fillLoop_eq (hw : g.Wf) (P : ParamRec α) {ylm f p : List α} (hy : ylm.length = g.d.shell) (hf : f.length = g.d.total)
    (hp : p.length = g.d.total) {m : α} (hm : maxLoop (g.d.nx - 1) g.d.nphi g.d.nlat (fV P g ylm) = .ok m) :
    fillLoop P g ylm f p = .ok
      (g.d.mk3 fun ix it ip => if ix < g.d.nx - 1 then fV P g ylm ix it ip else g.d.at3 f ix it ip,
       g.d.mk3 fun ix it ip => if ix < g.d.nx - 1 then pV P g ylm ix it ip else g.d.at3 p ix it ip, m) := by
  have hx := hw.rad.pos
  have h1 := hw.ok.fill_xpt_upto (A := g.d.nx - 1) (by omega) hf (fV P g ylm) (b := fun ix ip it w =>
    wr w (g.d.indx_R_th_ph ix it ip) (fV P g ylm ix it ip)) (fun _ _ _ _ _ _ _ _ => rfl)
  have h2 := hw.ok.fill_xpt_upto (A := g.d.nx - 1) (by omega) hp (pV P g ylm) (b := fun ix ip it w =>
    wr w (g.d.indx_R_th_ph ix it ip) (pV P g ylm ix it ip)) (fun _ _ _ _ _ _ _ _ => rfl)
  unfold fillLoop
  rw [usub_of_le hx.2 (by omega)]
  have h23 : forRange 0 (g.d.nx - 1) (p, (0:α)) (fun ix st => forRange 0 g.d.nphi st fun ip st => forRange 0 g.d.nlat st fun it st => do
      let p ← wr st.1 (g.d.indx_R_th_ph ix it ip) (pV P g ylm ix it ip)
      .ok (p, if lt st.2 (fabs (fV P g ylm ix it ip)) then fabs (fV P g ylm ix it ip) else st.2))
      = .ok (g.d.mk3 fun ix it ip => if ix < g.d.nx - 1 then pV P g ylm ix it ip else g.d.at3 p ix it ip, m) := by
    refine forRange_prod _ _ ?_ h2 hm
    intro ix x y x' y' _ hx e1 e2
    refine forRange_prod _ _ ?_ e1 e2
    intro it x y x' y' _ ht e1 e2
    refine forRange_prod _ _ ?_ e1 e2
    intro ip x y x' y' _ hp e1 e2
    cases e2
    dsimp only at e1 ⊢
    rw [e1]; rfl
  refine forRange_prod _ _ ?_ h1 h23
  intro ix x y x' y' _ hix e1 e2
  refine forRange_prod _ _ ?_ e1 e2
  intro ip x y x' y' _ hip e1 e2
  refine forRange_prod _ _ ?_ e1 e2
  rintro it x ⟨yp, ym⟩ x' ⟨yp', ym'⟩ _ hit e1 e2
  dsimp only at e1 e2 ⊢
  have hr : g.d.InR ix it ip := ⟨by omega, hit, hip⟩
  rw [hw.getR_eq hr, ok_bind]
  dsimp only
  obtain ⟨u, a1, a2, a3, a4⟩ := wr_wr e1 (profile P.rl P.ru (width P.rl P.ru) (Grid.R_to_r g.cl (g.radial.ptV ix)))
  cases e3 : wr yp (g.d.indx_R_th_ph ix it ip) (pV P g ylm ix it ip) with
  | error e => rw [e3] at e2; cases e2
  | ok z =>
    rw [e3, ok_bind] at e2
    obtain ⟨u', b1, b2, b3, b4⟩ := wr_wr e3 (velocity P.direction (slope P.rl P.ru (width P.rl P.ru) (Grid.R_to_r g.cl (g.radial.ptV ix))))
    rw [a1, ok_bind, b1, ok_bind, a2, ok_bind, at2_rd hw.ok hy hit hip, ok_bind]
    show (do
      let f ← wr u (g.d.indx_R_th_ph ix it ip) (fV P g ylm ix it ip)
      let b ← rd u' (g.d.indx_R_th_ph ix it ip)
      let p ← wr u' (g.d.indx_R_th_ph ix it ip) (b * g.d.at2 ylm it ip)
      let a ← rd f (g.d.indx_R_th_ph ix it ip)
      Except.ok (f, p, if lt ym (fabs a) then fabs a else ym)) = _
    rw [a3, ok_bind, b2, ok_bind]
    show (do
      let p ← wr u' (g.d.indx_R_th_ph ix it ip) (pV P g ylm ix it ip)
      let a ← rd x' (g.d.indx_R_th_ph ix it ip)
      Except.ok (x', p, if lt ym (fabs a) then fabs a else ym)) = _
    rw [b3, ok_bind, a4, ok_bind]
    cases e2
    rfl

theorem rescale_eq (hw : g.Wf) (P : ParamRec α) (m : α) {f p : List α} (hf : f.length = g.d.total)
    (hp : p.length = g.d.total) : rescale P g m f p = .ok (g.d.mk3 fun ix it ip => g.d.at3 f ix it ip * (P.amp / m),
      g.d.mk3 fun ix it ip => g.d.at3 p ix it ip * (P.amp / m)) := by
  have key : ∀ v : List α, v.length = g.d.total → forRange 0 g.d.nx v (fun ix st => forRange 0 g.d.nphi st fun ip st =>
      forRange 0 g.d.nlat st fun it st => do
        let a ← rd st (g.d.indx_R_th_ph ix it ip)
        wr st (g.d.indx_R_th_ph ix it ip) (a * (P.amp / m))) = .ok (g.d.mk3 fun ix it ip => g.d.at3 v ix it ip * (P.amp / m)) := by
    intro v hv
    refine hw.ok.fill_xpt hv (fun ix it ip => g.d.at3 v ix it ip * (P.amp / m)) (b := fun ix ip it w => do
        let a ← rd w (g.d.indx_R_th_ph ix it ip)
        wr w (g.d.indx_R_th_ph ix it ip) (a * (P.amp / m))) ?_
    intro ix it ip w hr hl he
    rw [hw.ok.rd3 hl hr, ok_bind, he]
  unfold rescale
  refine forRange_prod _ _ ?_ (key f hf) (key p hp)
  intro ix x y x' y' _ hix e1 e2
  refine forRange_prod _ _ ?_ e1 e2
  intro ip x y x' y' _ hip e1 e2
  refine forRange_prod _ _ ?_ e1 e2
  intro it x y x' y' _ hit e1 e2
  dsimp only at e1 e2 ⊢
  cases e3 : rd x (g.d.indx_R_th_ph ix it ip) with
  | error e => rw [e3] at e1; cases e1
  | ok a =>
    cases e4 : rd y (g.d.indx_R_th_ph ix it ip) with
    | error e => rw [e4] at e2; cases e2
    | ok b =>
      rw [e3, ok_bind] at e1
      rw [e4, ok_bind] at e2
      rw [ok_bind, e1, ok_bind, ok_bind, e2, ok_bind]

/-- the whole routine, given the angular factor -/
theorem compact_pulse_eq (hw : g.Wf) (P : ParamRec α) (J : Junk (Cx α)) {ylm f p : List α}
    (hy : g.compute_ylm J (Sphere.toU P.l_ang) (Sphere.toU P.m_ang) = .ok ylm) (hl : ylm.length = g.d.shell)
    (hf : f.length = g.d.total) (hp : p.length = g.d.total) {m : α}
    (hm : maxLoop (g.d.nx - 1) g.d.nphi g.d.nlat (fV P g ylm) = .ok m) :
    compact_pulse P g J f p = .ok
      (g.d.mk3 fun ix it ip => (fun v => if lt (tenth 16) (fabs m) then v * (P.amp / m) else v)
          (if ix < g.d.nx - 1 then fV P g ylm ix it ip else g.d.at3 f ix it ip),
       g.d.mk3 fun ix it ip => (fun v => if lt (tenth 16) (fabs m) then v * (P.amp / m) else v)
          (if ix < g.d.nx - 1 then pV P g ylm ix it ip else g.d.at3 p ix it ip)) := by
  unfold compact_pulse
  rw [hy, ok_bind, fillLoop_eq hw P hl hf hp hm, ok_bind]
  dsimp only
  by_cases h : lt (tenth 16) (fabs m) = true
  · rw [if_pos h, rescale_eq hw P m (by simp) (by simp)]
    congr 2
    · apply Dims.mk3_congr
      intro ix it ip hr
      rw [hw.ok.at3_mk3 hr, if_pos h]
    · apply Dims.mk3_congr
      intro ix it ip hr
      rw [hw.ok.at3_mk3 hr, if_pos h]
  · rw [if_neg h]
    congr 2
    · apply Dims.mk3_congr
      intro ix it ip hr
      rw [if_neg h]
    · apply Dims.mk3_congr
      intro ix it ip hr
      rw [if_neg h]

end ID
end SFK
