import Verif.Model.Grid
import Verif.Lemmas.GridIndex
import Verif.Lemmas.FD
import Verif.Lemmas.Cheb
import Verif.Lemmas.Sphere
/-
Closed forms of the grid operators (bitwise, for every scalar type).
-/
namespace SFK
open Scalar

/-- A loop on a pair of states that steps the components independently. -/
theorem forRange_prod {σ τ : Type} {lo hi : Nat} {a a' : σ} {b b' : τ} {body : Nat → σ × τ → Exec (σ × τ)}
    (b1 : Nat → σ → Exec σ) (b2 : Nat → τ → Exec τ)
    (h : ∀ i x y x' y', lo ≤ i → i < hi → b1 i x = .ok x' → b2 i y = .ok y' → body i (x, y) = .ok (x', y'))
    (h1 : forRange lo hi a b1 = .ok a') (h2 : forRange lo hi b b2 = .ok b') :
    forRange lo hi (a, b) body = .ok (a', b') := by
  unfold forRange at *
  have key : ∀ c i a b, lo ≤ i → i + c ≤ hi → forN c i a b1 = .ok a' → forN c i b b2 = .ok b' →
      forN c i (a, b) body = .ok (a', b') := by
    intro c
    induction c with
    | zero =>
      intro i a b _ _ h1 h2
      simp only [forN, Except.ok.injEq] at h1 h2 ⊢
      rw [h1, h2]
    | succ c ih =>
      intro i a b hi0 hi1 h1 h2
      simp only [forN] at h1 h2 ⊢
      cases e1 : b1 i a with
      | error e => rw [e1] at h1; cases h1
      | ok x =>
        cases e2 : b2 i b with
        | error e => rw [e2] at h2; cases h2
        | ok y =>
          rw [e1] at h1
          rw [e2] at h2
          rw [h i a b x y hi0 (by omega) e1 e2]
          exact ih (i + 1) x y (by omega) (by omega) h1 h2
  by_cases hle : lo ≤ hi
  · exact key _ lo a b (Nat.le_refl _) (by omega) h1 h2
  · have hz : hi - lo = 0 := by omega
    rw [hz] at h1 h2 ⊢
    simp only [forN, Except.ok.injEq] at h1 h2 ⊢
    rw [h1, h2]

namespace Dims
variable {α : Type} [Inhabited α] {d : Dims}

/-- A complete nest of loops in the order R, theta, phi overwrites the whole array. -/
theorem Ok.fill_xtp (h : d.Ok) {v : List α} (hv : v.length = d.total) (F : Nat → Nat → Nat → α)
    {b : Nat → Nat → Nat → List α → Exec (List α)}
    (hb : ∀ ix it ip w, d.InR ix it ip → w.length = d.total → d.at3 w ix it ip = d.at3 v ix it ip →
      b ix it ip w = wr w (d.indx_R_th_ph ix it ip) (F ix it ip)) :
    forRange 0 d.nx v (fun ix w => forRange 0 d.nlat w fun it w => forRange 0 d.nphi w fun ip w => b ix it ip w)
      = .ok (d.mk3 F) := by
  rw [forRange3_wr (n := d.total) d.pos3 F d.dX d.dT d.dP hv
    (fun i j k hi hj hk => ⟨d.pos3_lt ⟨hi, hj, hk⟩, d.dX_pos3 ⟨hi, hj, hk⟩, d.dT_pos3 ⟨hi, hj, hk⟩, d.dP_pos3 ⟨hi, hj, hk⟩⟩)
    (fun i j k w hi hj hk hw hg => by
      rw [hb i j k w ⟨hi, hj, hk⟩ hw (by unfold at3; rw [h.indx3 ⟨hi, hj, hk⟩]; exact hg), h.indx3 ⟨hi, hj, hk⟩])]
  congr 1
  apply tab_congr
  intro k hk
  obtain ⟨h1, h2⟩ := d.dec3 hk
  rw [if_pos ⟨h1.1, h1.2.1, h1.2.2, h2⟩]

/-- The same nest in the order R, phi, theta. -/
theorem Ok.fill_xpt (h : d.Ok) {v : List α} (hv : v.length = d.total) (F : Nat → Nat → Nat → α)
    {b : Nat → Nat → Nat → List α → Exec (List α)}
    (hb : ∀ ix it ip w, d.InR ix it ip → w.length = d.total → d.at3 w ix it ip = d.at3 v ix it ip →
      b ix ip it w = wr w (d.indx_R_th_ph ix it ip) (F ix it ip)) :
    forRange 0 d.nx v (fun ix w => forRange 0 d.nphi w fun ip w => forRange 0 d.nlat w fun it w => b ix ip it w)
      = .ok (d.mk3 F) := by
  rw [forRange3_wr (n := d.total) (fun ix ip it => d.pos3 ix it ip) (fun ix ip it => F ix it ip) d.dX d.dP d.dT hv
    (fun i k j hi hk hj => ⟨d.pos3_lt ⟨hi, hj, hk⟩, d.dX_pos3 ⟨hi, hj, hk⟩, d.dP_pos3 ⟨hi, hj, hk⟩, d.dT_pos3 ⟨hi, hj, hk⟩⟩)
    (fun i k j w hi hk hj hw hg => by
      rw [hb i j k w ⟨hi, hj, hk⟩ hw (by unfold at3; rw [h.indx3 ⟨hi, hj, hk⟩]; exact hg), h.indx3 ⟨hi, hj, hk⟩])]
  congr 1
  apply tab_congr
  intro k hk
  obtain ⟨h1, h2⟩ := d.dec3 hk
  rw [if_pos ⟨h1.1, h1.2.2, h1.2.1, h2⟩]

/-- A loop over shells, each iteration replacing one shell as a function of that shell alone. -/
theorem Ok.shells (h : d.Ok) {v : List α} (hv : v.length = d.total) (G : Nat → Nat → Nat → α)
    {b : Nat → List α → Exec (List α)}
    (hb : ∀ ix w, ix < d.nx → w.length = d.total →
      (∀ it ip, it < d.nlat → ip < d.nphi → d.at3 w ix it ip = d.at3 v ix it ip) →
      b ix w = .ok (d.mk3 fun ix' it ip => if ix' = ix then G ix it ip else d.at3 w ix' it ip)) :
    forRange 0 d.nx v b = .ok (d.mk3 G) := by
  rw [forRange_closed (fun k => d.mk3 fun ix it ip => if ix < k then G ix it ip else d.at3 v ix it ip)
    (Nat.zero_le _)]
  · congr 1
    apply mk3_congr
    intro ix it ip hr
    rw [if_pos hr.1]
  · rw [h.eq_mk3 hv]
    apply mk3_congr
    intro ix it ip hr
    rw [if_neg (by omega), h.at3_mk3 hr]
  · intro k _ hk
    rw [hb k _ hk (by simp)]
    · congr 1
      apply mk3_congr
      intro ix it ip hr
      rw [h.at3_mk3 hr]
      by_cases h1 : ix = k
      · rw [if_pos h1, if_pos (by omega), h1]
      · rw [if_neg h1]
        by_cases h2 : ix < k
        · rw [if_pos h2, if_pos (by omega)]
        · rw [if_neg h2, if_neg (by omega)]
    · intro it ip ht hp
      rw [h.at3_mk3 ⟨hk, ht, hp⟩, if_neg (by omega)]

/-- A loop over radial lines, each iteration replacing one line as a function of that line alone. -/
theorem Ok.lines (h : d.Ok) {v : List α} (hv : v.length = d.total) (G : Nat → Nat → Nat → α)
    {b : Nat → Nat → List α → Exec (List α)}
    (hb : ∀ it ip w, it < d.nlat → ip < d.nphi → w.length = d.total →
      (∀ ix, ix < d.nx → d.at3 w ix it ip = d.at3 v ix it ip) →
      b it ip w = .ok (d.mk3 fun ix it' ip' => if it' = it ∧ ip' = ip then G ix it ip else d.at3 w ix it' ip')) :
    forRange 0 d.nlat v (fun it w => forRange 0 d.nphi w fun ip w => b it ip w) = .ok (d.mk3 G) := by
  rw [forRange_closed (fun k => d.mk3 fun ix it ip => if it < k then G ix it ip else d.at3 v ix it ip)
    (Nat.zero_le _)]
  · congr 1
    apply mk3_congr
    intro ix it ip hr
    rw [if_pos hr.2.1]
  · rw [h.eq_mk3 hv]
    apply mk3_congr
    intro ix it ip hr
    rw [if_neg (by omega), h.at3_mk3 hr]
  · intro k _ hk
    rw [forRange_closed (fun q => d.mk3 fun ix it ip => if it < k ∨ (it = k ∧ ip < q) then G ix it ip else d.at3 v ix it ip)
      (Nat.zero_le _)]
    · congr 1
      apply mk3_congr
      intro ix it ip hr
      have := hr.2.2
      by_cases h1 : it < k + 1
      · rw [if_pos h1, if_pos (by omega)]
      · rw [if_neg h1, if_neg (by omega)]
    · apply mk3_congr
      intro ix it ip hr
      by_cases h1 : it < k
      · rw [if_pos h1, if_pos (by omega)]
      · rw [if_neg h1, if_neg (by omega)]
    · intro q _ hq
      rw [hb k q _ hk hq (by simp)]
      · congr 1
        apply mk3_congr
        intro ix it ip hr
        rw [h.at3_mk3 hr]
        by_cases h1 : it = k ∧ ip = q
        · rw [if_pos h1, if_pos (by omega), h1.1, h1.2]
        · rw [if_neg h1]
          by_cases h2 : it < k ∨ (it = k ∧ ip < q)
          · rw [if_pos h2, if_pos (by omega)]
          · rw [if_neg h2, if_neg (by omega)]
      · intro ix hx
        rw [h.at3_mk3 ⟨hx, hk, hq⟩, if_neg (by omega)]

/-- the shell `ix` of a field -/
def shellOf (d : Dims) (v : List α) (ix : Nat) : List α := d.mk2 fun it ip => d.at3 v ix it ip
/-- the radial line `(it,ip)` of a field -/
def lineOf (d : Dims) (v : List α) (it ip : Nat) : List α := tab d.nx fun ix => d.at3 v ix it ip

@[simp] theorem shellOf_length (v : List α) (ix : Nat) : (d.shellOf v ix).length = d.shell := by simp [shellOf]
@[simp] theorem lineOf_length (v : List α) (it ip : Nat) : (d.lineOf v it ip).length = d.nx := by simp [lineOf]

theorem shellOf_congr {v w : List α} {ix : Nat}
    (h : ∀ it ip, it < d.nlat → ip < d.nphi → d.at3 v ix it ip = d.at3 w ix it ip) : d.shellOf v ix = d.shellOf w ix :=
  mk2_congr h
theorem lineOf_congr {v w : List α} {it ip : Nat} (h : ∀ ix, ix < d.nx → d.at3 v ix it ip = d.at3 w ix it ip) :
    d.lineOf v it ip = d.lineOf w it ip := tab_congr h

/-- the field whose shell `ix` is `F ix` -/
def ofShells (d : Dims) (F : Nat → List α) : List α := d.mk3 fun ix it ip => d.at2 (F ix) it ip
/-- the field whose radial line `(it,ip)` is `F it ip` -/
def ofLines (d : Dims) (F : Nat → Nat → List α) : List α := d.mk3 fun ix it ip => gv (F it ip) ix

@[simp] theorem ofShells_length (F : Nat → List α) : (d.ofShells F).length = d.total := by simp [ofShells]
@[simp] theorem ofLines_length (F : Nat → Nat → List α) : (d.ofLines F).length = d.total := by simp [ofLines]

end Dims

namespace Radial
variable {α : Type} [Scalar α]

/-- A radial grid of `nx` points on which every routine stays in bounds. -/
def Wf : Radial α → Nat → Prop
  | .fd r, nx => r.n = nx ∧ 8 ≤ nx ∧ nx < W
  | .cheb r, nx => r.n = nx ∧ r.Wf

/-- pure radial point -/
def ptV : Radial α → Nat → α
  | .fd r, i => r.pt i
  | .cheb r, i => gv r.pts i

/-- pure first derivative -/
def derP : Radial α → List α → List α
  | .fd r, v => tab r.n (r.derV (gv v))
  | .cheb r, v => r.derP v

/-- pure second derivative -/
def der2P : Radial α → List α → List α
  | .fd r, v => tab r.n (r.der2V (gv v))
  | .cheb r, v => r.derP (r.derP v)

theorem Wf.pos {r : Radial α} {nx : Nat} (h : r.Wf nx) : 2 ≤ nx ∧ nx < W := by
  cases r with
  | fd r => exact ⟨by have := h.2.1; omega, h.2.2⟩
  | cheb r => exact ⟨h.1 ▸ h.2.two, h.1 ▸ h.2.ltW⟩

theorem Wf.pt_eq {r : Radial α} {nx : Nat} (h : r.Wf nx) {i : Nat} (hi : i < nx) : r.pt i = .ok (r.ptV i) := by
  cases r with
  | fd r => rfl
  | cheb r => exact rd_ok (by rw [h.2.pts, h.1]; exact hi)

theorem Wf.derP_length {r : Radial α} {nx : Nat} (h : r.Wf nx) (v : List α) : (r.derP v).length = nx := by
  cases r with
  | fd r => simp [derP, h.1]
  | cheb r => simp [derP, Cheb.derP, h.1]

theorem Wf.der2P_length {r : Radial α} {nx : Nat} (h : r.Wf nx) (v : List α) : (r.der2P v).length = nx := by
  cases r with
  | fd r => simp [der2P, h.1]
  | cheb r => simp [der2P, Cheb.derP, h.1]

theorem Wf.der_eq {r : Radial α} {nx : Nat} (h : r.Wf nx) {v dv : List α} (hv : v.length = nx) (hd : dv.length = nx) :
    r.der v dv = .ok (r.derP v) := by
  cases r with
  | fd r => exact FD.der_eq r (by have := h.1; have := h.2.1; omega) (h.1 ▸ h.2.2) (by rw [hv, h.1]) (by rw [hd, h.1])
  | cheb r => exact Cheb.der_eq h.2 (by rw [hv, h.1]) (by rw [hd, h.1])

theorem Wf.der12_eq {r : Radial α} {nx : Nat} (h : r.Wf nx) {v dv ddv : List α} (hv : v.length = nx)
    (hd : dv.length = nx) (hdd : ddv.length = nx) : r.der12 v dv ddv = .ok (r.derP v, r.der2P v) := by
  cases r with
  | fd r =>
    unfold der12
    dsimp only
    rw [FD.der_eq r (by have := h.1; have := h.2.1; omega) (h.1 ▸ h.2.2) (by rw [hv, h.1]) (by rw [hd, h.1]), ok_bind,
      FD.der2_eq r (by have := h.1; have := h.2.1; omega) (h.1 ▸ h.2.2) (by rw [hv, h.1]) (by rw [hdd, h.1]), ok_bind]
    rfl
  | cheb r =>
    unfold der12
    dsimp only
    rw [Cheb.der_eq h.2 (by rw [hv, h.1]) (by rw [hd, h.1]), ok_bind,
      Cheb.der_eq h.2 (by simp [Cheb.derP]) (by rw [hdd, h.1]), ok_bind]
    rfl

end Radial

namespace Grid
variable {α : Type} [Scalar α]

/-- pure polar node -/
def thV (g : Grid α) (it : Nat) : α := acos (gv g.sphere.sht.ct it)
/-- pure physical-derivative factors -/
def dRV (g : Grid α) (ix : Nat) : α := pown (1 - (g.radial.ptV ix / g.cl)) 2
def d2RV (g : Grid α) (ix : Nat) : α := (-2 / g.cl) * pown (1 - (g.radial.ptV ix / g.cl)) 3

/-- What the constructor establishes. -/
structure Wf (g : Grid α) : Prop where
  ok : g.d.Ok
  sph : g.sphere.Wf
  nlat : g.sphere.nlat = g.d.nlat
  nphi : g.sphere.nphi = g.d.nphi
  lmax : g.sphere.lmax = g.d.nl
  mmax : g.sphere.mmax = g.d.nm
  rad : g.radial.Wf g.d.nx
  R_th_ph : g.R_th_ph = g.d.mk3 fun ix it ip => ⟨g.radial.ptV ix, g.thV it, g.sphere.phi ip⟩
  x_y_z : g.x_y_z = g.d.mk3 fun ix it ip => ⟨g.radial.ptV ix * cos (g.sphere.phi ip) * sin (g.thV it),
    g.radial.ptV ix * sin (g.sphere.phi ip) * sin (g.thV it), g.radial.ptV ix * cos (g.thV it)⟩
  th_ph : g.th_ph = g.d.mk2 fun it ip => ⟨g.thV it, g.sphere.phi ip⟩
  R_th : g.R_th = tab (g.d.nx * g.d.nlat) fun k => ⟨g.radial.ptV (k / g.d.nlat), g.thV (k % g.d.nlat)⟩
  x_z : g.x_z = tab (g.d.nx * g.d.nlat) fun k =>
    ⟨g.radial.ptV (k / g.d.nlat) * sin (g.thV (k % g.d.nlat)), g.radial.ptV (k / g.d.nlat) * cos (g.thV (k % g.d.nlat))⟩
  R_l : g.R_l = tab (g.d.nx * g.d.nl) fun k => ⟨g.radial.ptV (k / g.d.nl), dbl (k % g.d.nl)⟩
  n_l : g.n_l = tab (g.d.nx * g.d.nl) fun k => ⟨dbl (k / g.d.nl), dbl (k % g.d.nl)⟩
  dR : g.dR = tab g.d.nx g.dRV
  d2R : g.d2R = tab g.d.nx g.d2RV

section ctor
variable {d : Dims} {s : Sphere α} {r : Radial α} (ok : d.Ok) (hs : s.Wf) (hl : s.nlat = d.nlat) (hr : r.Wf d.nx)
include ok hr

omit ok hr in
theorem theta_eq (hs : s.Wf) (hl : s.nlat = d.nlat) {it : Nat} (ht : it < d.nlat) :
    s.theta it = .ok (acos (gv s.sht.ct it)) := by
  unfold Sphere.theta
  rw [rd_ok (by rw [hs.api.ct_len, hl]; exact ht)]; rfl

include hs hl

theorem mkPts3_eq : mkPts3 d s r = .ok
    (d.mk3 fun ix it ip => (⟨r.ptV ix, acos (gv s.sht.ct it), s.phi ip⟩ : P3 α),
     d.mk3 fun ix it ip => (⟨r.ptV ix * cos (s.phi ip) * sin (acos (gv s.sht.ct it)),
      r.ptV ix * sin (s.phi ip) * sin (acos (gv s.sht.ct it)), r.ptV ix * cos (acos (gv s.sht.ct it))⟩ : P3 α)) := by
  unfold mkPts3
  dsimp only
  have h1 := ok.fill_xtp (v := List.replicate d.nFull (⟨0, 0, 0⟩ : P3 α)) (by simp [ok.nFull_eq])
    (fun ix it ip => (⟨r.ptV ix, acos (gv s.sht.ct it), s.phi ip⟩ : P3 α)) (b := fun ix it ip w =>
      wr w (d.indx_R_th_ph ix it ip) (⟨r.ptV ix, acos (gv s.sht.ct it), s.phi ip⟩ : P3 α)) (fun _ _ _ _ _ _ _ => rfl)
  have h2 := ok.fill_xtp (v := List.replicate d.nFull (⟨0, 0, 0⟩ : P3 α)) (by simp [ok.nFull_eq])
    (fun ix it ip => (⟨r.ptV ix * cos (s.phi ip) * sin (acos (gv s.sht.ct it)),
      r.ptV ix * sin (s.phi ip) * sin (acos (gv s.sht.ct it)), r.ptV ix * cos (acos (gv s.sht.ct it))⟩ : P3 α))
    (b := fun ix it ip w => wr w (d.indx_R_th_ph ix it ip) (⟨r.ptV ix * cos (s.phi ip) * sin (acos (gv s.sht.ct it)),
      r.ptV ix * sin (s.phi ip) * sin (acos (gv s.sht.ct it)), r.ptV ix * cos (acos (gv s.sht.ct it))⟩ : P3 α))
    (fun _ _ _ _ _ _ _ => rfl)
  refine forRange_prod _ _ ?_ h1 h2
  intro ix x y x' y' _ hx e1 e2
  refine forRange_prod _ _ ?_ e1 e2
  intro it x y x' y' _ ht e1 e2
  refine forRange_prod _ _ ?_ e1 e2
  intro ip x y x' y' _ hp e1 e2
  rw [hr.pt_eq hx, ok_bind, theta_eq hs hl ht, ok_bind]
  dsimp only
  rw [e1, ok_bind, e2]; rfl

omit hr in
theorem mkThPh_eq : mkThPh d s = .ok (d.mk2 fun it ip => (⟨acos (gv s.sht.ct it), s.phi ip⟩ : P2 α)) := by
  unfold mkThPh
  rw [forRange2_wr (n := d.shell) d.pos2 (fun it ip => (⟨acos (gv s.sht.ct it), s.phi ip⟩ : P2 α)) d.decT d.decP
    (by simp [ok.nphinlat])
    (fun it ip ht hp => ⟨d.pos2_lt ht hp, d.decT_pos2 ht hp, d.decP_pos2 ht hp⟩)
    (fun it ip w ht hp _ _ => by rw [theta_eq hs hl ht, ok_bind, ok.indx2 ht hp])]
  congr 1
  apply tab_congr
  intro k hk
  rw [if_pos (d.dec2 hk)]

omit ok hs hl hr in
theorem fillNB {β : Type} [Inhabited β] {A B : Nat} {v : List β} (hv : v.length = A * B) (F : Nat → Nat → β)
    {idx : Nat → Nat → Nat} (hidx : ∀ i j, i < A → j < B → idx i j = B * i + j) :
    forRange 0 A v (fun i w => forRange 0 B w fun j w => wr w (idx i j) (F i j))
      = .ok (tab (A * B) fun k => F (k / B) (k % B)) := by
  rw [forRange2_wr (n := A * B) (fun i j => B * i + j) F (· / B) (· % B) hv
    (fun i j hi hj => ⟨Dims.mul_add_lt hi hj, (Dims.div_mod_lemma hj).1, (Dims.div_mod_lemma hj).2⟩)
    (fun i j w hi hj _ _ => by rw [hidx i j hi hj])]
  congr 1
  apply tab_congr
  intro k hk
  have hB : 0 < B := Nat.pos_of_ne_zero (by rintro rfl; simp at hk)
  rw [if_pos ⟨Nat.div_lt_of_lt_mul (by rw [Nat.mul_comm]; exact hk), Nat.mod_lt _ hB, Nat.div_add_mod k B⟩]

theorem mkRTh_eq : mkRTh d s r = .ok
    (tab (d.nx * d.nlat) fun k => (⟨r.ptV (k / d.nlat), acos (gv s.sht.ct (k % d.nlat))⟩ : P2 α),
     tab (d.nx * d.nlat) fun k => (⟨r.ptV (k / d.nlat) * sin (acos (gv s.sht.ct (k % d.nlat))),
      r.ptV (k / d.nlat) * cos (acos (gv s.sht.ct (k % d.nlat)))⟩ : P2 α)) := by
  unfold mkRTh
  dsimp only
  have h1 := fillNB (v := List.replicate (umul d.nx d.nlat) (⟨0, 0⟩ : P2 α)) (by simp [ok.nxnlat])
    (fun ix it => (⟨r.ptV ix, acos (gv s.sht.ct it)⟩ : P2 α)) (idx := d.indx_r_th) (fun i j hi hj => ok.indx_rth hi hj)
  have h2 := fillNB (v := List.replicate (umul d.nx d.nlat) (⟨0, 0⟩ : P2 α)) (by simp [ok.nxnlat])
    (fun ix it => (⟨r.ptV ix * sin (acos (gv s.sht.ct it)), r.ptV ix * cos (acos (gv s.sht.ct it))⟩ : P2 α))
    (idx := d.indx_r_th) (fun i j hi hj => ok.indx_rth hi hj)
  refine forRange_prod _ _ ?_ h1 h2
  intro ix x y x' y' _ hx e1 e2
  refine forRange_prod _ _ ?_ e1 e2
  intro it x y x' y' _ ht e1 e2
  rw [hr.pt_eq hx, ok_bind, theta_eq hs hl ht, ok_bind]
  dsimp only
  rw [e1, ok_bind, e2]; rfl

omit hs hl in
theorem mkRL_eq : mkRL d r = .ok
    (tab (d.nx * d.nl) fun k => (⟨r.ptV (k / d.nl), dbl (k % d.nl)⟩ : P2 α),
     tab (d.nx * d.nl) fun k => (⟨dbl (k / d.nl), dbl (k % d.nl)⟩ : P2 α)) := by
  unfold mkRL
  dsimp only
  have h1 := fillNB (v := List.replicate (umul d.nx d.nl) (⟨0, 0⟩ : P2 α)) (by simp [ok.nxnl])
    (fun ix il => (⟨r.ptV ix, dbl il⟩ : P2 α)) (idx := d.indx_r_l) (fun i j hi hj => ok.indx_rl hi hj)
  have h2 := fillNB (v := List.replicate (umul d.nx d.nl) (⟨0, 0⟩ : P2 α)) (by simp [ok.nxnl])
    (fun ix il => (⟨dbl ix, dbl il⟩ : P2 α)) (idx := d.indx_r_l) (fun i j hi hj => ok.indx_rl hi hj)
  refine forRange_prod _ _ ?_ h1 h2
  intro ix x y x' y' _ hx e1 e2
  refine forRange_prod _ _ ?_ e1 e2
  intro it x y x' y' _ ht e1 e2
  rw [hr.pt_eq hx, ok_bind]
  dsimp only
  rw [e1, ok_bind, e2]; rfl

omit ok hs hl in
theorem mkJac_eq (cl : α) : mkJac d cl r = .ok
    (tab d.nx fun ix => pown (1 - (r.ptV ix / cl)) 2, tab d.nx fun ix => (-2 / cl) * pown (1 - (r.ptV ix / cl)) 3) := by
  unfold mkJac
  dsimp only
  have h1 := forRange_fill (n := d.nx) (v := List.replicate d.nx (0 : α)) (fun ix => pown (1 - (r.ptV ix / cl)) 2) (by simp)
    (b := fun ix w => wr w ix (pown (1 - (r.ptV ix / cl)) 2)) (fun _ _ _ _ _ => rfl)
  have h2 := forRange_fill (n := d.nx) (v := List.replicate d.nx (0 : α))
    (fun ix => (-2 / cl) * pown (1 - (r.ptV ix / cl)) 3) (by simp)
    (b := fun ix w => wr w ix ((-2 / cl) * pown (1 - (r.ptV ix / cl)) 3)) (fun _ _ _ _ _ => rfl)
  refine forRange_prod _ _ ?_ h1 h2
  intro ix x y x' y' _ hx e1 e2
  rw [hr.pt_eq hx, ok_bind]
  dsimp only
  rw [e1, ok_bind, e2]; rfl

/-- The constructor succeeds and establishes `Wf`. -/
theorem mk'_wf (hp : s.nphi = d.nphi) (hlm : s.lmax = d.nl) (hmm : s.mmax = d.nm) (cl Rmin Rmax : α) :
    ∃ g, mk' d cl Rmin Rmax s r = .ok g ∧ g.Wf ∧ g.d = d ∧ g.cl = cl ∧ g.sphere = s ∧ g.radial = r
      ∧ g.Rmin = Rmin ∧ g.Rmax = Rmax := by
  unfold mk'
  rw [mkPts3_eq ok hs hl hr, ok_bind]
  dsimp only
  rw [mkThPh_eq ok hs hl, ok_bind, mkRTh_eq ok hs hl hr, ok_bind]
  dsimp only
  rw [mkRL_eq ok hr, ok_bind]
  dsimp only
  rw [mkJac_eq hr cl, ok_bind]
  refine ⟨_, rfl, ?_, rfl, rfl, rfl, rfl, rfl, rfl⟩
  exact ⟨ok, hs, hl, hp, hlm, hmm, hr, rfl, rfl, rfl, rfl, rfl, rfl, rfl, rfl, rfl⟩

end ctor

variable {g : Grid α}

theorem Wf.nTot_eq (h : g.Wf) : g.nTot = g.d.total := by
  unfold nTot
  rw [h.ok.nxnlat]
  exact umul_of_lt h.ok.fits

theorem Wf.nSph_eq (h : g.Wf) : g.sphere.nSph = g.d.shell := by
  rw [h.sph.nSph', h.nlat, h.nphi]; rfl

theorem Wf.nlatnphi (h : g.Wf) : umul g.d.nlat g.d.nphi = g.d.shell := umul_of_lt h.ok.shell_lt

theorem Wf.getR_eq (h : g.Wf) {ix it ip : Nat} (hr : g.d.InR ix it ip) :
    g.getR_th_ph ix it ip = .ok ⟨g.radial.ptV ix, g.thV it, g.sphere.phi ip⟩ := by
  unfold getR_th_ph
  rw [h.R_th_ph, h.ok.rd3 (by simp) hr, h.ok.at3_mk3 hr]

theorem Wf.perShell_eq (h : g.Wf) {op : Nat → List α → List α → Exec (List α)} (F : List α → List α)
    (hop : ∀ k v o, v.length = g.d.shell → o.length = g.d.shell → op k v o = .ok (F v))
    (hF : ∀ v, v.length = g.d.shell → (F v).length = g.d.shell)
    {v dv : List α} (hv : v.length = g.d.total) (hd : dv.length = g.d.total) :
    g.perShell op v dv = .ok (g.d.ofShells fun ix => F (g.d.shellOf v ix)) := by
  unfold perShell
  rw [cassert_true _ _ (by simp [hv, h.nTot_eq]), cassert_true _ _ (by simp [hd, h.nTot_eq])]
  simp only [ok_bind]
  apply h.ok.shells hd
  intro ix w hx hw _
  rw [h.ok.get_row_th_ph_eq hx hv (by simp [h.nlatnphi]), ok_bind, hop _ _ _ (by simp) (by simp [h.nlatnphi]), ok_bind,
    h.ok.set_row_th_ph_eq hx (hF _ (by simp)) hw]
  rfl

theorem Wf.perLine_eq (h : g.Wf) {op : List α → Exec (List α)} (F : List α → List α)
    (hop : ∀ v, v.length = g.d.nx → op v = .ok (F v)) (hF : ∀ v, v.length = g.d.nx → (F v).length = g.d.nx)
    {v dv : List α} (hv : v.length = g.d.total) (hd : dv.length = g.d.total) :
    g.perLine op v dv = .ok (g.d.ofLines fun it ip => F (g.d.lineOf v it ip)) := by
  unfold perLine
  rw [cassert_true _ _ (by simp [hv, h.nTot_eq]), cassert_true _ _ (by simp [hd, h.nTot_eq])]
  simp only [ok_bind]
  apply h.ok.lines hd
  intro it ip w ht hp hw _
  rw [h.ok.get_row_R_eq ht hp hv (by simp), ok_bind, hop _ (by simp), ok_bind,
    h.ok.set_row_R_eq ht hp (hF _ (by simp)) hw]
  rfl

/-- pure operators on lines -/
def oprP (g : Grid α) (v : List α) : List α := tab g.d.nx fun ix => gv (g.radial.derP v) ix * g.dRV ix
def op2rP (g : Grid α) (v : List α) : List α :=
  tab g.d.nx fun ix => g.d2RV ix * gv (g.radial.derP v) ix + pown (g.dRV ix) 2 * gv (g.radial.der2P v) ix

theorem Wf.opr_eq (h : g.Wf) {v : List α} (hv : v.length = g.d.nx) : g.opr v = .ok (g.oprP v) := by
  unfold opr
  rw [h.rad.der_eq hv (by simp), ok_bind]
  exact forRange_fill _ (h.rad.derP_length v) (fun i w hi hw hg => by
    rw [rd_ok (by omega), ok_bind, h.dR, rd_tab hi, ok_bind, hg])

theorem Wf.op2r_eq (h : g.Wf) {v : List α} (hv : v.length = g.d.nx) : g.op2r v = .ok (g.op2rP v) := by
  unfold op2r
  rw [h.rad.der12_eq hv (by simp) (by simp), ok_bind]
  dsimp only
  exact forRange_fill _ (h.rad.der2P_length v) (fun i w hi hw hg => by
    rw [h.d2R, rd_tab hi, ok_bind, rd_ok (by rw [h.rad.derP_length]; exact hi), ok_bind, h.dR, rd_tab hi, ok_bind,
      rd_ok (by omega), ok_bind, hg])

/-- pure grid operators -/
def pRP (g : Grid α) (v : List α) : List α := g.d.ofLines fun it ip => g.radial.derP (g.d.lineOf v it ip)
def prP (g : Grid α) (v : List α) : List α := g.d.ofLines fun it ip => g.oprP (g.d.lineOf v it ip)
def p2rP (g : Grid α) (v : List α) : List α := g.d.ofLines fun it ip => g.op2rP (g.d.lineOf v it ip)
noncomputable def pphiP (g : Grid α) (v : List α) : List α := g.d.ofShells fun ix => g.sphere.phiP (g.d.shellOf v ix)
noncomputable def plapP (g : Grid α) (v : List α) : List α := g.d.ofShells fun ix => g.sphere.lapP (g.d.shellOf v ix)
noncomputable def psphXP (g : Grid α) (v : List α) : List α := g.d.ofShells fun ix => g.sphere.sphXP (g.d.shellOf v ix)
noncomputable def filtP (g : Grid α) (v : List α) : List α := g.d.ofShells fun ix => g.sphere.filtP (g.d.shellOf v ix)

@[simp] theorem pRP_length (v : List α) : (g.pRP v).length = g.d.total := by simp [pRP]
@[simp] theorem prP_length (v : List α) : (g.prP v).length = g.d.total := by simp [prP]
@[simp] theorem p2rP_length (v : List α) : (g.p2rP v).length = g.d.total := by simp [p2rP]
@[simp] theorem pphiP_length (v : List α) : (g.pphiP v).length = g.d.total := by simp [pphiP]
@[simp] theorem plapP_length (v : List α) : (g.plapP v).length = g.d.total := by simp [plapP]
@[simp] theorem psphXP_length (v : List α) : (g.psphXP v).length = g.d.total := by simp [psphXP]
@[simp] theorem filtP_length (v : List α) : (g.filtP v).length = g.d.total := by simp [filtP]

theorem Wf.set_partial_R_eq (h : g.Wf) {v dv : List α} (hv : v.length = g.d.total) (hd : dv.length = g.d.total) :
    g.set_partial_R v dv = .ok (g.pRP v) :=
  h.perLine_eq _ (fun _ hv => h.rad.der_eq hv (by simp)) (fun _ _ => h.rad.derP_length _) hv hd

theorem Wf.set_partial_r_eq (h : g.Wf) {v dv : List α} (hv : v.length = g.d.total) (hd : dv.length = g.d.total) :
    g.set_partial_r v dv = .ok (g.prP v) :=
  h.perLine_eq _ (fun _ hv => h.opr_eq hv) (fun _ _ => by simp [oprP]) hv hd

theorem Wf.set_partial2_r_eq (h : g.Wf) {v dv : List α} (hv : v.length = g.d.total) (hd : dv.length = g.d.total) :
    g.set_partial2_r v dv = .ok (g.p2rP v) :=
  h.perLine_eq _ (fun _ hv => h.op2r_eq hv) (fun _ _ => by simp [op2rP]) hv hd

theorem Wf.set_partial_phi_eq (h : g.Wf) (J : Junk (Cx α)) {v dv : List α} (hv : v.length = g.d.total)
    (hd : dv.length = g.d.total) : g.set_partial_phi J v dv = .ok (g.pphiP v) := by
  unfold set_partial_phi pphiP
  exact h.perShell_eq g.sphere.phiP (fun _ _ _ hv ho => h.sph.partial_phi_eq _ (hv.trans h.nSph_eq.symm) (ho.trans h.nSph_eq.symm))
    (fun _ _ => (h.sph.thruP_length _ _).trans h.nSph_eq) hv hd

theorem Wf.set_spherical_lap_eq (h : g.Wf) (J : Junk (Cx α)) {v dv : List α} (hv : v.length = g.d.total)
    (hd : dv.length = g.d.total) : g.set_spherical_lap J v dv = .ok (g.plapP v) := by
  unfold set_spherical_lap plapP
  exact h.perShell_eq g.sphere.lapP (fun _ _ _ hv ho => h.sph.laplace_eq _ (hv.trans h.nSph_eq.symm) (ho.trans h.nSph_eq.symm))
    (fun _ _ => (h.sph.thruP_length _ _).trans h.nSph_eq) hv hd

/-- the loops of `lower` stay within the coefficients the library stores -/
def Full (g : Grid α) : Prop := g.sphere.lmax ^ 2 ≤ g.sphere.sht.ncp

theorem Wf.full (h : g.Wf) (hd : OrdersOk g.d.nl g.d.nm) : g.Full := by
  unfold Full
  have hm := h.sph.api.m_le
  rw [h.sph.ncp_eq, h.lmax, h.mmax]
  rw [h.lmax, h.mmax] at hm
  unfold OrdersOk at hd
  obtain ⟨d, hl⟩ := Nat.exists_eq_add_of_le hm
  rw [hl] at hd ⊢
  rw [Nat.add_sub_cancel_left] at hd ⊢
  nlinarith

theorem Wf.set_sphereX_eq (h : g.Wf) (hf : g.Full) (J : Junk (Cx α)) {v dv : List α} (hv : v.length = g.d.total)
    (hd : dv.length = g.d.total) : g.set_sphereX J v dv = .ok (g.psphXP v) := by
  unfold set_sphereX psphXP
  exact h.perShell_eq g.sphere.sphXP (fun _ _ _ hv ho => h.sph.sphereX_eq hf _ (hv.trans h.nSph_eq.symm) (ho.trans h.nSph_eq.symm))
    (fun _ hv => (by simp [Sphere.sphXP, h.nSph_eq])) hv hd

theorem Wf.perShell_eqI (h : g.Wf) {op : Nat → List α → List α → Exec (List α)} (F : Nat → List α → List α)
    (hop : ∀ k v out, v.length = g.d.shell → out.length = g.d.shell → op k v out = .ok (F k v))
    (hF : ∀ k v, v.length = g.d.shell → (F k v).length = g.d.shell) {v dv : List α} (hv : v.length = g.d.total)
    (hd : dv.length = g.d.total) : g.perShell op v dv = .ok (g.d.ofShells fun ix => F ix (g.d.shellOf v ix)) := by
  unfold perShell
  rw [cassert_true _ _ (by simp [hv, h.nTot_eq]), cassert_true _ _ (by simp [hd, h.nTot_eq])]
  simp only [ok_bind]
  apply h.ok.shells hd
  intro ix w hx hw _
  rw [h.ok.get_row_th_ph_eq hx hv (by simp [h.nlatnphi]), ok_bind, hop _ _ _ (by simp) (by simp [h.nlatnphi]), ok_bind,
    h.ok.set_row_th_ph_eq hx (hF _ _ (by simp)) hw]
  rfl

/-- angular gradient square of a grid function, given what the uninitialised memory held -/
noncomputable def psphXJ (g : Grid α) (J : Junk (Cx α)) (v : List α) : List α :=
  g.d.ofShells fun ix => g.sphere.sphXJ (J.sub ix) (g.d.shellOf v ix)

@[simp] theorem psphXJ_length (J : Junk (Cx α)) (v : List α) : (g.psphXJ J v).length = g.d.total := by simp [psphXJ]

theorem Wf.set_sphereX_junk_eq (h : g.Wf) (J : Junk (Cx α)) {v dv : List α} (hv : v.length = g.d.total)
    (hd : dv.length = g.d.total) : g.set_sphereX J v dv = .ok (g.psphXJ J v) := by
  unfold set_sphereX psphXJ
  exact h.perShell_eqI (fun k => g.sphere.sphXJ (J.sub k))
    (fun _ _ _ hv ho => h.sph.sphereX_junk_eq _ (hv.trans h.nSph_eq.symm) (ho.trans h.nSph_eq.symm))
    (fun _ _ hv => (by simp [Sphere.sphXJ, h.nSph_eq])) hv hd

theorem Wf.filterShells_eq (h : g.Wf) (J : Junk (Cx α)) {v : List α} (hv : v.length = g.d.total) :
    g.filterShells J v = .ok (g.filtP v) := by
  unfold filterShells filtP Dims.ofShells
  apply h.ok.shells hv (fun ix it ip => g.d.at2 (g.sphere.filtP (g.d.shellOf v ix)) it ip)
  intro ix w hx hw hg
  rw [h.ok.get_row_th_ph_eq hx hw (by simp [h.nlatnphi]), ok_bind,
    h.sph.filter_eq _ (by simp [h.nSph_eq]), ok_bind,
    h.ok.set_row_th_ph_eq (inp := g.sphere.filtP _) hx ((h.sph.thruP_length _ _).trans h.nSph_eq) hw]
  rw [← Dims.shellOf_congr hg]
  rfl

theorem Wf.filterLines_eq (h : g.Wf) {v : List α} (hv : v.length = g.d.total) : g.filterLines v = .ok v := by
  unfold filterLines
  have h2 := h.rad.pos
  rw [h.ok.lines hv (g.d.at3 v), ← h.ok.eq_mk3 hv]
  intro it ip w ht hp hw hg
  rw [h.ok.get_row_R_eq ht hp hw (by simp), ok_bind, usub_of_le h2.2 (by omega), rd_ok (by simp; omega), ok_bind,
    rd_ok (by simp; omega), ok_bind, h.ok.set_row_R_eq ht hp (by simp) hw, ok_bind, wr_ok (by simp; omega), ok_bind,
    wr_ok (by simp; omega), ok_bind]
  congr 1
  apply Dims.mk3_congr
  intro ix it' ip' hr
  by_cases hc : it' = it ∧ ip' = ip
  · rw [if_pos hc, if_pos hc, gv_tab hr.1, hg ix hr.1]
  · rw [if_neg hc, if_neg hc]

theorem Wf.filter_eq (h : g.Wf) (J : Junk (Cx α)) {v : List α} (hv : v.length = g.d.total) :
    g.filter J v = .ok (g.filtP v) := by
  unfold filter
  rw [cassert_true _ _ (by simp [hv, h.nTot_eq]), ok_bind, h.filterShells_eq J hv, ok_bind]
  exact h.filterLines_eq (by simp)

/-- pure power spectrum of the grid -/
def specP (g : Grid α) (v : List α) : List α :=
  tab (g.d.nx * g.d.nl) fun k => gv (g.sphere.powP (g.sphere.sht.spatToSH (g.d.shellOf v (k / g.d.nl)))) (k % g.d.nl)

theorem Wf.spectrum_eq (h : g.Wf) (J : Junk (Cx α)) {v p : List α} (hv : v.length = g.d.total)
    (hp : p.length = g.d.nx * g.d.nl) : g.set_angular_power_spectrum J v p = .ok (g.specP v) := by
  unfold set_angular_power_spectrum
  rw [cassert_true _ _ (by simp [hv, h.nTot_eq]), cassert_true _ _ (by simp [hp, h.ok.nxnl])]
  simp only [ok_bind]
  by_cases hnl : g.d.nl = 0
  · have e1 : g.specP v = [] := by simp [specP, hnl, tab]
    rw [e1, forRange_closed (fun _ => ([] : List α)) (Nat.zero_le _)]
    · exact List.length_eq_zero_iff.mp (by rw [hp, hnl]; simp)
    · intro k _ hk
      rw [h.ok.get_row_th_ph_eq hk hv (by simp [h.nlatnphi]), ok_bind,
        h.sph.power_spectrum_eq _ (by simp [h.nSph_eq]) (by simp [h.lmax]), ok_bind,
        h.ok.set_row_l_eq hk (by simp [Sphere.powP, h.lmax]) (by simp [hnl])]
      simp [hnl, tab]
  have hnl' : 0 < g.d.nl := Nat.pos_of_ne_zero hnl
  unfold specP
  rw [forRange_closed (fun K => tab (g.d.nx * g.d.nl) fun k => if k / g.d.nl < K then
    gv (g.sphere.powP (g.sphere.sht.spatToSH (g.d.shellOf v (k / g.d.nl)))) (k % g.d.nl) else gv p k) (Nat.zero_le _)]
  · congr 1
    apply tab_congr
    intro k hk
    rw [if_pos (Nat.div_lt_of_lt_mul (by rw [Nat.mul_comm]; exact hk))]
  · rw [← tab_gv' hp]
    apply tab_congr
    intro k hk
    rw [if_neg (Nat.not_lt_zero _), gv_tab hk]
  · intro K _ hK
    rw [h.ok.get_row_th_ph_eq hK hv (by simp [h.nlatnphi]), ok_bind,
      h.sph.power_spectrum_eq _ (by simp [h.nSph_eq]) (by simp [h.lmax]), ok_bind,
      h.ok.set_row_l_eq hK (by simp [Sphere.powP, h.lmax]) (by simp)]
    congr 1
    apply tab_congr
    intro k hk
    rw [gv_tab hk]
    by_cases h1 : k / g.d.nl = K
    · rw [if_pos h1, if_pos (by omega), h1]; rfl
    · rw [if_neg h1]
      by_cases h2 : k / g.d.nl < K
      · rw [if_pos h2, if_pos (by omega)]
      · rw [if_neg h2, if_neg (by omega)]

end Grid
end SFK
