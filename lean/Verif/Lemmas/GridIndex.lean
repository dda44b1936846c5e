import Verif.Lemmas.Base
import Verif.Spec.Grid
import Mathlib.Tactic.Ring
import Mathlib.Tactic.Linarith

namespace SFK
namespace Dims

variable {α : Type} [Inhabited α] (d : Dims)

/-- shell size -/
def shell : Nat := d.nlat * d.nphi

/-- mathematical shell position -/
def pos2 (it ip : Nat) : Nat := if d.contig then d.nlat * ip + it else d.nphi * it + ip
/-- mathematical grid position -/
def pos3 (ix it ip : Nat) : Nat := d.shell * ix + d.pos2 it ip

def decT (k : Nat) : Nat := if d.contig then k % d.nlat else k / d.nphi
def decP (k : Nat) : Nat := if d.contig then k / d.nlat else k % d.nphi
def dX (k : Nat) : Nat := k / d.shell
def dT (k : Nat) : Nat := d.decT (k % d.shell)
def dP (k : Nat) : Nat := d.decP (k % d.shell)

theorem mul_add_lt {a b i j : Nat} (hi : i < a) (hj : j < b) : b * i + j < a * b := by
  calc b * i + j < b * i + b := by omega
    _ = b * (i + 1) := by ring
    _ ≤ b * a := Nat.mul_le_mul_left _ hi
    _ = a * b := Nat.mul_comm _ _

theorem pos2_lt {it ip : Nat} (ht : it < d.nlat) (hp : ip < d.nphi) : d.pos2 it ip < d.shell := by
  unfold pos2 shell
  split
  · rw [Nat.mul_comm d.nlat d.nphi]; exact mul_add_lt hp ht
  · exact mul_add_lt ht hp

theorem decT_pos2 {it ip : Nat} (ht : it < d.nlat) (hp : ip < d.nphi) : d.decT (d.pos2 it ip) = it := by
  unfold decT pos2
  split
  · rw [Nat.mul_add_mod, Nat.mod_eq_of_lt ht]
  · rw [Nat.mul_add_div (by omega), Nat.div_eq_of_lt hp]; rfl

theorem decP_pos2 {it ip : Nat} (ht : it < d.nlat) (hp : ip < d.nphi) : d.decP (d.pos2 it ip) = ip := by
  unfold decP pos2
  split
  · rw [Nat.mul_add_div (by omega), Nat.div_eq_of_lt ht]; rfl
  · rw [Nat.mul_add_mod, Nat.mod_eq_of_lt hp]

theorem dec2 {k : Nat} (hk : k < d.shell) :
    d.decT k < d.nlat ∧ d.decP k < d.nphi ∧ d.pos2 (d.decT k) (d.decP k) = k := by
  unfold shell at hk
  have hl : 0 < d.nlat := Nat.pos_of_ne_zero (by rintro h; simp [h] at hk)
  have hp : 0 < d.nphi := Nat.pos_of_ne_zero (by rintro h; simp [h] at hk)
  unfold decT decP pos2
  split
  · exact ⟨Nat.mod_lt _ hl, Nat.div_lt_of_lt_mul hk, Nat.div_add_mod _ _⟩
  · refine ⟨Nat.div_lt_of_lt_mul (by rwa [Nat.mul_comm] at hk), Nat.mod_lt _ hp, Nat.div_add_mod _ _⟩

theorem total_eq : d.total = d.nx * d.shell := by unfold total shell; ring

theorem pos3_lt {ix it ip : Nat} (h : d.InR ix it ip) : d.pos3 ix it ip < d.total := by
  obtain ⟨hx, ht, hp⟩ := h
  rw [total_eq]
  exact mul_add_lt hx (d.pos2_lt ht hp)

theorem dX_pos3 {ix it ip : Nat} (h : d.InR ix it ip) : d.dX (d.pos3 ix it ip) = ix := by
  obtain ⟨hx, ht, hp⟩ := h
  have := d.pos2_lt ht hp
  unfold dX pos3
  rw [Nat.mul_add_div (by omega), Nat.div_eq_of_lt this]; rfl

theorem pos3_mod {ix it ip : Nat} (h : d.InR ix it ip) : d.pos3 ix it ip % d.shell = d.pos2 it ip := by
  obtain ⟨hx, ht, hp⟩ := h
  unfold pos3
  rw [Nat.mul_add_mod, Nat.mod_eq_of_lt (d.pos2_lt ht hp)]

theorem dT_pos3 {ix it ip : Nat} (h : d.InR ix it ip) : d.dT (d.pos3 ix it ip) = it := by
  unfold dT; rw [pos3_mod d h]; exact d.decT_pos2 h.2.1 h.2.2

theorem dP_pos3 {ix it ip : Nat} (h : d.InR ix it ip) : d.dP (d.pos3 ix it ip) = ip := by
  unfold dP; rw [pos3_mod d h]; exact d.decP_pos2 h.2.1 h.2.2

theorem dec3 {k : Nat} (hk : k < d.total) :
    d.InR (d.dX k) (d.dT k) (d.dP k) ∧ d.pos3 (d.dX k) (d.dT k) (d.dP k) = k := by
  rw [total_eq] at hk
  have hs : 0 < d.shell := Nat.pos_of_ne_zero (by rintro h; simp [h] at hk)
  obtain ⟨h1, h2, h3⟩ := d.dec2 (Nat.mod_lt k hs)
  refine ⟨⟨Nat.div_lt_of_lt_mul (by rwa [Nat.mul_comm] at hk), h1, h2⟩, ?_⟩
  unfold pos3 dX dT dP
  rw [h3]; exact Nat.div_add_mod _ _

variable {d}

theorem Ok.shell_lt (h : d.Ok) : d.shell < W := by
  have := h.fits
  have h1 := h.nx_pos
  have : d.nx * d.nlat * d.nphi = d.nx * d.shell := by unfold shell; ring
  have : d.shell ≤ d.nx * d.shell := Nat.le_mul_of_pos_left _ h1
  omega

theorem Ok.total_lt (h : d.Ok) : d.total < W := h.fits
theorem Ok.shell_pos (h : d.Ok) : 0 < d.shell := Nat.mul_pos h.nlat_pos h.nphi_pos

/-- The 64-bit shell index is the mathematical one. -/
theorem Ok.indx2 (h : d.Ok) {it ip : Nat} (ht : it < d.nlat) (hp : ip < d.nphi) :
    d.indx_th_ph it ip = d.pos2 it ip := by
  have h1 := d.pos2_lt ht hp
  have h2 := h.shell_lt
  unfold indx_th_ph
  unfold pos2 at *
  split
  · rename_i hc
    rw [if_pos hc] at h1
    rw [umul_of_lt (by omega), uadd_of_lt (by omega)]
  · rename_i hc
    rw [if_neg hc] at h1
    rw [umul_of_lt (by omega), uadd_of_lt (by omega)]

/-- The 64-bit grid index is the mathematical one. -/
theorem Ok.indx3 (h : d.Ok) {ix it ip : Nat} (hr : d.InR ix it ip) :
    d.indx_R_th_ph ix it ip = d.pos3 ix it ip := by
  have h1 := d.pos3_lt hr
  have h2 := h.total_lt
  have h3 := h.shell_lt
  have hs : d.nphi * d.nlat = d.shell := by unfold shell; ring
  have hs' : d.nlat * d.nphi = d.shell := rfl
  unfold indx_R_th_ph
  unfold pos3 pos2 at *
  split
  · rename_i hc
    rw [if_pos hc] at h1
    rw [umul_of_lt (by omega : d.nphi * d.nlat < W), hs, umul_of_lt (by omega), umul_of_lt (by omega),
      uadd_of_lt (a := d.shell * ix) (by omega), uadd_of_lt (by omega)]
    omega
  · rename_i hc
    rw [if_neg hc] at h1
    rw [umul_of_lt (by omega : d.nlat * d.nphi < W), hs', umul_of_lt (by omega), umul_of_lt (by omega),
      uadd_of_lt (a := d.shell * ix) (by omega), uadd_of_lt (by omega)]
    omega

theorem Ok.nFull_eq (h : d.Ok) : d.nFull = d.total := by
  have h2 := h.total_lt
  have h3 : d.nx * d.nphi * d.nlat = d.total := by unfold total; ring
  have h4 : d.nx * d.nphi ≤ d.nx * d.nphi * d.nlat := Nat.le_mul_of_pos_right _ h.nlat_pos
  unfold nFull
  rw [umul_of_lt (a := d.nx) (by omega), umul_of_lt (by omega), h3]

theorem Ok.nxnlat (h : d.Ok) : umul d.nx d.nlat = d.nx * d.nlat := by
  have h2 := h.fits
  have : d.nx * d.nlat ≤ d.nx * d.nlat * d.nphi := Nat.le_mul_of_pos_right _ h.nphi_pos
  exact umul_of_lt (by omega)

theorem Ok.nxnphi (h : d.Ok) : umul d.nx d.nphi = d.nx * d.nphi := by
  have h2 := h.fits
  have : d.nx * d.nphi ≤ d.nx * d.nphi * d.nlat := Nat.le_mul_of_pos_right _ h.nlat_pos
  have h3 : d.nx * d.nphi * d.nlat = d.nx * d.nlat * d.nphi := by ring
  exact umul_of_lt (by omega)

theorem Ok.nxnl (h : d.Ok) : umul d.nx d.nl = d.nx * d.nl := umul_of_lt h.fitsl

theorem Ok.nphinlat (h : d.Ok) : umul d.nphi d.nlat = d.shell := by
  have := h.shell_lt
  have hs : d.nphi * d.nlat = d.shell := by unfold shell; ring
  rw [umul_of_lt (by omega), hs]

theorem Ok.indx_rl (h : d.Ok) {ix il : Nat} (hx : ix < d.nx) (hl : il < d.nl) :
    d.indx_r_l ix il = d.nl * ix + il := by
  have := mul_add_lt hx hl
  have := h.fitsl
  unfold indx_r_l
  rw [umul_of_lt (by omega), uadd_of_lt (by omega)]

theorem Ok.indx_rth (h : d.Ok) {ix it : Nat} (hx : ix < d.nx) (hl : it < d.nlat) :
    d.indx_r_th ix it = d.nlat * ix + it := by
  have h1 := mul_add_lt hx hl
  have h2 := h.nxnlat
  have : d.nx * d.nlat < W := by rw [← h2]; unfold umul; exact Nat.mod_lt _ (by unfold W; omega)
  unfold indx_r_th
  rw [umul_of_lt (by omega), uadd_of_lt (by omega)]

theorem Ok.indx_rph (h : d.Ok) {ix ip : Nat} (hx : ix < d.nx) (hl : ip < d.nphi) :
    d.indx_r_ph ix ip = d.nphi * ix + ip := by
  have h1 := mul_add_lt hx hl
  have h2 := h.nxnphi
  have : d.nx * d.nphi < W := by rw [← h2]; unfold umul; exact Nat.mod_lt _ (by unfold W; omega)
  unfold indx_r_ph
  rw [umul_of_lt (by omega), uadd_of_lt (by omega)]

theorem Ok.idx3_lt (h : d.Ok) {ix it ip : Nat} (hr : d.InR ix it ip) : d.indx_R_th_ph ix it ip < d.total := by
  rw [h.indx3 hr]; exact d.pos3_lt hr

theorem Ok.idx3_inj (h : d.Ok) {ix it ip ix' it' ip' : Nat} (hr : d.InR ix it ip) (hr' : d.InR ix' it' ip')
    (he : d.indx_R_th_ph ix it ip = d.indx_R_th_ph ix' it' ip') : ix = ix' ∧ it = it' ∧ ip = ip' := by
  rw [h.indx3 hr, h.indx3 hr'] at he
  refine ⟨?_, ?_, ?_⟩
  · rw [← d.dX_pos3 hr, he, d.dX_pos3 hr']
  · rw [← d.dT_pos3 hr, he, d.dT_pos3 hr']
  · rw [← d.dP_pos3 hr, he, d.dP_pos3 hr']

theorem Ok.idx3_surj (h : d.Ok) {k : Nat} (hk : k < d.total) :
    ∃ ix it ip, d.InR ix it ip ∧ d.indx_R_th_ph ix it ip = k := by
  obtain ⟨h1, h2⟩ := d.dec3 hk
  exact ⟨_, _, _, h1, by rw [h.indx3 h1, h2]⟩

/-- The grid array with value `F ix it ip` at each point. -/
def mk3 (d : Dims) (F : Nat → Nat → Nat → α) : List α :=
  tab d.total fun k => F (d.dX k) (d.dT k) (d.dP k)

/-- The shell array with value `F it ip` at each angular point. -/
def mk2 (d : Dims) (F : Nat → Nat → α) : List α := tab d.shell fun k => F (d.decT k) (d.decP k)

omit [Inhabited α] in
@[simp] theorem mk3_length (F : Nat → Nat → Nat → α) : (d.mk3 F).length = d.total := by simp [mk3]
omit [Inhabited α] in
@[simp] theorem mk2_length (F : Nat → Nat → α) : (d.mk2 F).length = d.shell := by simp [mk2]

theorem Ok.at3_mk3 (h : d.Ok) {F : Nat → Nat → Nat → α} {ix it ip : Nat} (hr : d.InR ix it ip) :
    d.at3 (d.mk3 F) ix it ip = F ix it ip := by
  unfold at3 mk3
  rw [h.indx3 hr, gv_tab (d.pos3_lt hr), d.dX_pos3 hr, d.dT_pos3 hr, d.dP_pos3 hr]

theorem Ok.at2_mk2 (h : d.Ok) {F : Nat → Nat → α} {it ip : Nat} (ht : it < d.nlat) (hp : ip < d.nphi) :
    d.at2 (d.mk2 F) it ip = F it ip := by
  unfold at2 mk2
  rw [h.indx2 ht hp, gv_tab (d.pos2_lt ht hp), d.decT_pos2 ht hp, d.decP_pos2 ht hp]

omit [Inhabited α] in
theorem mk3_congr {F G : Nat → Nat → Nat → α} (h : ∀ ix it ip, d.InR ix it ip → F ix it ip = G ix it ip) :
    d.mk3 F = d.mk3 G := tab_congr fun _ hk => h _ _ _ (d.dec3 hk).1

omit [Inhabited α] in
theorem mk2_congr {F G : Nat → Nat → α} (h : ∀ it ip, it < d.nlat → ip < d.nphi → F it ip = G it ip) :
    d.mk2 F = d.mk2 G := tab_congr fun _ hk => h _ _ (d.dec2 hk).1 (d.dec2 hk).2.1

theorem Ok.eq_mk3 (h : d.Ok) {v : List α} (hv : v.length = d.total) : v = d.mk3 (d.at3 v) := by
  apply eq_tab hv
  intro k hk
  obtain ⟨h1, h2⟩ := d.dec3 hk
  unfold at3
  rw [h.indx3 h1, h2]

theorem Ok.eq_mk2 (h : d.Ok) {v : List α} (hv : v.length = d.shell) : v = d.mk2 (d.at2 v) := by
  apply eq_tab hv
  intro k hk
  obtain ⟨h1, h2, h3⟩ := d.dec2 hk
  unfold at2
  rw [h.indx2 h1 h2, h3]

/-- Two grid arrays with the same value at every grid point are equal. -/
theorem Ok.ext3 (h : d.Ok) {v w : List α} (hv : v.length = d.total) (hw : w.length = d.total)
    (he : ∀ ix it ip, d.InR ix it ip → d.at3 v ix it ip = d.at3 w ix it ip) : v = w := by
  rw [h.eq_mk3 hv, h.eq_mk3 hw]; exact mk3_congr he

theorem Ok.ext2 (h : d.Ok) {v w : List α} (hv : v.length = d.shell) (hw : w.length = d.shell)
    (he : ∀ it ip, it < d.nlat → ip < d.nphi → d.at2 v it ip = d.at2 w it ip) : v = w := by
  rw [h.eq_mk2 hv, h.eq_mk2 hw]; exact mk2_congr he

theorem Ok.rd3 (h : d.Ok) {v : List α} (hv : v.length = d.total) {ix it ip : Nat} (hr : d.InR ix it ip) :
    rd v (d.indx_R_th_ph ix it ip) = .ok (d.at3 v ix it ip) :=
  rd_ok (by rw [hv]; exact h.idx3_lt hr)

/-! ### closed forms of the row functions -/

theorem Ok.get_row_R_eq (h : d.Ok) {it ip : Nat} (ht : it < d.nlat) (hp : ip < d.nphi) {inp out : List α}
    (hi : inp.length = d.total) (ho : out.length = d.nx) :
    d.get_row_R it ip inp out = .ok (tab d.nx fun ix => d.at3 inp ix it ip) := by
  unfold get_row_R
  rw [cassert_true _ _ (by simp [hi, h.nFull_eq]), cassert_true _ _ (by simp [ho])]
  simp only [ok_bind]
  apply forRange_fill _ ho
  intro ix w hx _ _
  rw [h.rd3 hi ⟨hx, ht, hp⟩]; rfl

theorem Ok.set_row_R_eq (h : d.Ok) {it ip : Nat} (ht : it < d.nlat) (hp : ip < d.nphi) {inp out : List α}
    (hi : inp.length = d.nx) (ho : out.length = d.total) :
    d.set_row_R it ip inp out =
      .ok (d.mk3 fun ix it' ip' => if it' = it ∧ ip' = ip then gv inp ix else d.at3 out ix it' ip') := by
  unfold set_row_R
  rw [cassert_true _ _ (by simp [hi]), cassert_true _ _ (by simp [ho, h.nFull_eq])]
  simp only [ok_bind]
  rw [forRange_wr (n := d.total) (fun ix => d.pos3 ix it ip) (fun ix => gv inp ix) d.dX ho (Nat.zero_le _)
    (fun ix _ hx => ⟨d.pos3_lt ⟨hx, ht, hp⟩, d.dX_pos3 ⟨hx, ht, hp⟩⟩)
    (fun ix w _ hx _ _ => by rw [rd_ok (by omega), h.indx3 ⟨hx, ht, hp⟩]; rfl)]
  congr 1
  apply tab_congr
  intro k hk
  obtain ⟨h1, h2⟩ := d.dec3 hk
  beta_reduce
  by_cases hc : d.dT k = it ∧ d.dP k = ip
  · rw [if_pos hc, if_pos]
    exact ⟨Nat.zero_le _, h1.1, by rw [← hc.1, ← hc.2, h2]⟩
  · rw [if_neg hc, if_neg]
    · unfold at3; rw [h.indx3 h1, h2]
    · rintro ⟨_, _, h3⟩
      apply hc
      rw [← h3]
      exact ⟨d.dT_pos3 ⟨h1.1, ht, hp⟩, d.dP_pos3 ⟨h1.1, ht, hp⟩⟩

theorem Ok.get_row_th_eq (h : d.Ok) {ix ip : Nat} (hx : ix < d.nx) (hp : ip < d.nphi) {inp out : List α}
    (hi : inp.length = d.total) (ho : out.length = d.nlat) :
    d.get_row_th ix ip inp out = .ok (tab d.nlat fun it => d.at3 inp ix it ip) := by
  unfold get_row_th
  rw [cassert_true _ _ (by simp [hi, h.nFull_eq]), cassert_true _ _ (by simp [ho])]
  simp only [ok_bind]
  apply forRange_fill _ ho
  intro it w ht _ _
  rw [h.rd3 hi ⟨hx, ht, hp⟩]; rfl

theorem Ok.set_row_th_eq (h : d.Ok) {ix ip : Nat} (hx : ix < d.nx) (hp : ip < d.nphi) {inp out : List α}
    (hi : inp.length = d.nlat) (ho : out.length = d.total) :
    d.set_row_th ix ip inp out =
      .ok (d.mk3 fun ix' it ip' => if ix' = ix ∧ ip' = ip then gv inp it else d.at3 out ix' it ip') := by
  unfold set_row_th
  rw [cassert_true _ _ (by simp [hi]), cassert_true _ _ (by simp [ho, h.nFull_eq])]
  simp only [ok_bind]
  rw [forRange_wr (n := d.total) (fun it => d.pos3 ix it ip) (fun it => gv inp it) d.dT ho (Nat.zero_le _)
    (fun it _ ht => ⟨d.pos3_lt ⟨hx, ht, hp⟩, d.dT_pos3 ⟨hx, ht, hp⟩⟩)
    (fun it w _ ht _ _ => by rw [rd_ok (by omega), h.indx3 ⟨hx, ht, hp⟩]; rfl)]
  congr 1
  apply tab_congr
  intro k hk
  obtain ⟨h1, h2⟩ := d.dec3 hk
  beta_reduce
  by_cases hc : d.dX k = ix ∧ d.dP k = ip
  · rw [if_pos hc, if_pos]
    exact ⟨Nat.zero_le _, h1.2.1, by rw [← hc.1, ← hc.2, h2]⟩
  · rw [if_neg hc, if_neg]
    · unfold at3; rw [h.indx3 h1, h2]
    · rintro ⟨_, _, h3⟩
      apply hc
      rw [← h3]
      exact ⟨d.dX_pos3 ⟨hx, h1.2.1, hp⟩, d.dP_pos3 ⟨hx, h1.2.1, hp⟩⟩

theorem Ok.get_row_ph_eq (h : d.Ok) {ix it : Nat} (hx : ix < d.nx) (ht : it < d.nlat) {inp out : List α}
    (hi : inp.length = d.total) (ho : out.length = d.nphi) :
    d.get_row_ph ix it inp out = .ok (tab d.nphi fun ip => d.at3 inp ix it ip) := by
  unfold get_row_ph
  rw [cassert_true _ _ (by simp [hi, h.nFull_eq]), cassert_true _ _ (by simp [ho])]
  simp only [ok_bind]
  apply forRange_fill _ ho
  intro ip w hp _ _
  rw [h.rd3 hi ⟨hx, ht, hp⟩]; rfl

/-- `set_row_ph` as the code has it: only the first `nlat` azimuthal points are written (nlat ≤ nphi). -/
theorem Ok.set_row_ph_eq (h : d.Ok) {ix it : Nat} (hx : ix < d.nx) (ht : it < d.nlat) {inp out : List α}
    (hi : inp.length = d.nphi) (ho : out.length = d.total) (hle : d.nlat ≤ d.nphi) :
    d.set_row_ph ix it inp out =
      .ok (d.mk3 fun ix' it' ip => if ix' = ix ∧ it' = it ∧ ip < d.nlat then gv inp ip else d.at3 out ix' it' ip) := by
  unfold set_row_ph
  rw [cassert_true _ _ (by simp [hi]), cassert_true _ _ (by simp [ho, h.nFull_eq])]
  simp only [ok_bind]
  rw [forRange_wr (n := d.total) (fun ip => d.pos3 ix it ip) (fun ip => gv inp ip) d.dP ho (Nat.zero_le _)
    (fun ip _ hp => ⟨d.pos3_lt ⟨hx, ht, by omega⟩, d.dP_pos3 ⟨hx, ht, by omega⟩⟩)
    (fun ip w _ hp _ _ => by rw [rd_ok (by omega), h.indx3 ⟨hx, ht, by omega⟩]; rfl)]
  congr 1
  apply tab_congr
  intro k hk
  obtain ⟨h1, h2⟩ := d.dec3 hk
  beta_reduce
  by_cases hc : d.dX k = ix ∧ d.dT k = it ∧ d.dP k < d.nlat
  · rw [if_pos hc, if_pos]
    exact ⟨Nat.zero_le _, hc.2.2, by rw [← hc.1, ← hc.2.1, h2]⟩
  · rw [if_neg hc, if_neg]
    · unfold at3; rw [h.indx3 h1, h2]
    · rintro ⟨_, h4, h3⟩
      apply hc
      refine ⟨?_, ?_, h4⟩
      · rw [← h3]; exact d.dX_pos3 ⟨hx, ht, h1.2.2⟩
      · rw [← h3]; exact d.dT_pos3 ⟨hx, ht, h1.2.2⟩

/-- `set_row_ph` reads past its input when nlat > nphi. -/
theorem Ok.set_row_ph_ub (h : d.Ok) {ix it : Nat} (hx : ix < d.nx) (ht : it < d.nlat) {inp out : List α}
    (hi : inp.length = d.nphi) (ho : out.length = d.total) (hlt : d.nphi < d.nlat) :
    d.set_row_ph ix it inp out = .error .ub := by
  unfold set_row_ph
  rw [cassert_true _ _ (by simp [hi]), cassert_true _ _ (by simp [ho, h.nFull_eq])]
  simp only [ok_bind]
  rw [forRange_split (Nat.zero_le d.nphi) hlt.le]
  rw [forRange_wr (n := d.total) (fun ip => d.pos3 ix it ip) (fun ip => gv inp ip) d.dP ho (Nat.zero_le _)
    (fun ip _ hp => ⟨d.pos3_lt ⟨hx, ht, by omega⟩, d.dP_pos3 ⟨hx, ht, by omega⟩⟩)
    (fun ip w _ hp _ _ => by rw [rd_ok (by omega), h.indx3 ⟨hx, ht, by omega⟩]; rfl)]
  apply forRange_first_err hlt
  rw [rd_ub (by omega)]; rfl

theorem div_mod_lemma {b i j : Nat} (hj : j < b) : (b * i + j) / b = i ∧ (b * i + j) % b = j := by
  constructor
  · rw [Nat.mul_add_div (by omega), Nat.div_eq_of_lt hj]; rfl
  · rw [Nat.mul_add_mod, Nat.mod_eq_of_lt hj]

theorem Ok.get_row_n_eq (h : d.Ok) {il : Nat} (hl : il < d.nl) {inp out : List α}
    (hi : inp.length = d.nx * d.nl) (ho : out.length = d.nx) :
    d.get_row_n il inp out = .ok (tab d.nx fun ix => gv inp (d.nl * ix + il)) := by
  unfold get_row_n
  rw [cassert_true _ _ (by simp [hi, h.nxnl]), cassert_true _ _ (by simp [ho])]
  simp only [ok_bind]
  apply forRange_fill _ ho
  intro ix w hx _ _
  rw [h.indx_rl hx hl, rd_ok (by rw [hi]; exact mul_add_lt hx hl)]; rfl

theorem Ok.set_row_n_eq (h : d.Ok) {il : Nat} (hl : il < d.nl) {inp out : List α}
    (hi : inp.length = d.nx) (ho : out.length = d.nx * d.nl) :
    d.set_row_n il inp out =
      .ok (tab (d.nx * d.nl) fun k => if k % d.nl = il then gv inp (k / d.nl) else gv out k) := by
  unfold set_row_n
  rw [cassert_true _ _ (by simp [hi]), cassert_true _ _ (by simp [ho, h.nxnl])]
  simp only [ok_bind]
  rw [forRange_wr (n := d.nx * d.nl) (fun ix => d.nl * ix + il) (fun ix => gv inp ix) (· / d.nl) ho (Nat.zero_le _)
    (fun ix _ hx => ⟨mul_add_lt hx hl, (div_mod_lemma hl).1⟩)
    (fun ix w _ hx _ _ => by rw [rd_ok (by omega), h.indx_rl hx hl]; rfl)]
  congr 1
  apply tab_congr
  intro k hk
  by_cases hc : k % d.nl = il
  · rw [if_pos hc, if_pos]
    exact ⟨Nat.zero_le _, Nat.div_lt_of_lt_mul (by rwa [Nat.mul_comm] at hk), by rw [← hc]; exact Nat.div_add_mod _ _⟩
  · rw [if_neg hc, if_neg]
    rintro ⟨_, _, h3⟩
    apply hc
    rw [← h3]; exact (div_mod_lemma hl).2

theorem Ok.set_row_l_eq (h : d.Ok) {ix : Nat} (hx : ix < d.nx) {inp out : List α}
    (hi : inp.length = d.nl) (ho : out.length = d.nx * d.nl) :
    d.set_row_l ix inp out =
      .ok (tab (d.nx * d.nl) fun k => if k / d.nl = ix then gv inp (k % d.nl) else gv out k) := by
  unfold set_row_l
  rw [cassert_true _ _ (by simp [hi]), cassert_true _ _ (by simp [ho, h.nxnl])]
  simp only [ok_bind]
  rw [forRange_wr (n := d.nx * d.nl) (fun il => d.nl * ix + il) (fun il => gv inp il) (· % d.nl) ho (Nat.zero_le _)
    (fun il _ hl => ⟨mul_add_lt hx hl, (div_mod_lemma hl).2⟩)
    (fun il w _ hl _ _ => by rw [rd_ok (by omega), h.indx_rl hx hl]; rfl)]
  congr 1
  apply tab_congr
  intro k hk
  have hl : 0 < d.nl := Nat.pos_of_ne_zero (by rintro h; simp [h] at hk)
  by_cases hc : k / d.nl = ix
  · rw [if_pos hc, if_pos]
    exact ⟨Nat.zero_le _, Nat.mod_lt _ hl, by rw [← hc]; exact Nat.div_add_mod _ _⟩
  · rw [if_neg hc, if_neg]
    rintro ⟨_, _, h3⟩
    apply hc
    rw [← h3]; exact (div_mod_lemma (Nat.mod_lt _ hl)).1

theorem Ok.get_row_R_th_eq (h : d.Ok) {ip : Nat} (hp : ip < d.nphi) {inp out : List α}
    (hi : inp.length = d.total) (ho : out.length = d.nx * d.nlat) :
    d.get_row_R_th ip inp out = .ok (tab (d.nx * d.nlat) fun k => d.at3 inp (k / d.nlat) (k % d.nlat) ip) := by
  unfold get_row_R_th
  rw [cassert_true _ _ (by simp [hi, h.nFull_eq]), cassert_true _ _ (by simp [ho, h.nxnlat])]
  simp only [ok_bind]
  rw [forRange2_wr (n := d.nx * d.nlat) (fun ix it => d.nlat * ix + it) (fun ix it => d.at3 inp ix it ip)
    (· / d.nlat) (· % d.nlat) ho
    (fun ix it hx ht => ⟨mul_add_lt hx ht, div_mod_lemma ht⟩)
    (fun ix it w hx ht _ _ => by rw [h.rd3 hi ⟨hx, ht, hp⟩, h.indx_rth hx ht]; rfl)]
  congr 1
  apply tab_congr
  intro k hk
  rw [if_pos]
  exact ⟨Nat.div_lt_of_lt_mul (by rwa [Nat.mul_comm] at hk), Nat.mod_lt _ h.nlat_pos, Nat.div_add_mod _ _⟩

theorem Ok.set_row_R_th_eq (h : d.Ok) {ip : Nat} (hp : ip < d.nphi) {inp out : List α}
    (hi : inp.length = d.nx * d.nlat) (ho : out.length = d.total) :
    d.set_row_R_th ip inp out =
      .ok (d.mk3 fun ix it ip' => if ip' = ip then gv inp (d.nlat * ix + it) else d.at3 out ix it ip') := by
  unfold set_row_R_th
  rw [cassert_true _ _ (by simp [hi, h.nxnlat]), cassert_true _ _ (by simp [ho, h.nFull_eq])]
  simp only [ok_bind]
  rw [forRange2_wr (n := d.total) (fun ix it => d.pos3 ix it ip) (fun ix it => gv inp (d.nlat * ix + it))
    d.dX d.dT ho
    (fun ix it hx ht => ⟨d.pos3_lt ⟨hx, ht, hp⟩, d.dX_pos3 ⟨hx, ht, hp⟩, d.dT_pos3 ⟨hx, ht, hp⟩⟩)
    (fun ix it w hx ht _ _ => by
      rw [h.indx_rth hx ht, rd_ok (by rw [hi]; exact mul_add_lt hx ht), h.indx3 ⟨hx, ht, hp⟩]; rfl)]
  congr 1
  apply tab_congr
  intro k hk
  obtain ⟨h1, h2⟩ := d.dec3 hk
  beta_reduce
  by_cases hc : d.dP k = ip
  · rw [if_pos hc, if_pos]
    exact ⟨h1.1, h1.2.1, by rw [← hc, h2]⟩
  · rw [if_neg hc, if_neg]
    · unfold at3; rw [h.indx3 h1, h2]
    · rintro ⟨_, h4, h3⟩
      apply hc
      rw [← h3]; exact d.dP_pos3 ⟨h1.1, h1.2.1, hp⟩

/-- `get_row_R_ph` past its two size assertions. -/
theorem Ok.get_row_R_ph_eq (h : d.Ok) {it : Nat} (ht : it < d.nlat) {inp out : List α}
    (hi : inp.length = d.total) (ho : out.length = d.nx * d.nphi) (hc : d.ndebug = true ∨ d.nphi = d.nlat) :
    d.get_row_R_ph it inp out = .ok (tab (d.nx * d.nphi) fun k => d.at3 inp (k / d.nphi) it (k % d.nphi)) := by
  unfold get_row_R_ph
  rw [cassert_true _ _ (by simp [hi, h.nFull_eq])]
  have hc2 : cassert d.ndebug (out.length == umul d.nx d.nlat) = .ok () := by
    rcases hc with hc | hc
    · simp [cassert, hc]
    · rw [cassert_true]; simp [ho, h.nxnlat, hc]
  rw [hc2]
  simp only [ok_bind]
  rw [forRange2_wr (n := d.nx * d.nphi) (fun ix ip => d.nphi * ix + ip) (fun ix ip => d.at3 inp ix it ip)
    (· / d.nphi) (· % d.nphi) ho
    (fun ix ip hx hp => ⟨mul_add_lt hx hp, div_mod_lemma hp⟩)
    (fun ix ip w hx hp _ _ => by rw [h.rd3 hi ⟨hx, ht, hp⟩, h.indx_rph hx hp]; rfl)]
  congr 1
  apply tab_congr
  intro k hk
  rw [if_pos]
  exact ⟨Nat.div_lt_of_lt_mul (by rwa [Nat.mul_comm] at hk), Nat.mod_lt _ h.nphi_pos, Nat.div_add_mod _ _⟩

theorem Ok.set_row_R_ph_eq (h : d.Ok) {it : Nat} (ht : it < d.nlat) {inp out : List α}
    (hi : inp.length = d.nx * d.nphi) (ho : out.length = d.total) :
    d.set_row_R_ph it inp out =
      .ok (d.mk3 fun ix it' ip => if it' = it then gv inp (d.nphi * ix + ip) else d.at3 out ix it' ip) := by
  unfold set_row_R_ph
  rw [cassert_true _ _ (by simp [hi, h.nxnphi]), cassert_true _ _ (by simp [ho, h.nFull_eq])]
  simp only [ok_bind]
  rw [forRange2_wr (n := d.total) (fun ix ip => d.pos3 ix it ip) (fun ix ip => gv inp (d.nphi * ix + ip))
    d.dX d.dP ho
    (fun ix ip hx hp => ⟨d.pos3_lt ⟨hx, ht, hp⟩, d.dX_pos3 ⟨hx, ht, hp⟩, d.dP_pos3 ⟨hx, ht, hp⟩⟩)
    (fun ix ip w hx hp _ _ => by
      rw [h.indx_rph hx hp, rd_ok (by rw [hi]; exact mul_add_lt hx hp), h.indx3 ⟨hx, ht, hp⟩]; rfl)]
  congr 1
  apply tab_congr
  intro k hk
  obtain ⟨h1, h2⟩ := d.dec3 hk
  beta_reduce
  by_cases hc : d.dT k = it
  · rw [if_pos hc, if_pos]
    exact ⟨h1.1, h1.2.2, by rw [← hc, h2]⟩
  · rw [if_neg hc, if_neg]
    · unfold at3; rw [h.indx3 h1, h2]
    · rintro ⟨_, h4, h3⟩
      apply hc
      rw [← h3]; exact d.dT_pos3 ⟨h1.1, ht, h1.2.2⟩

theorem Ok.get_row_th_ph_eq (h : d.Ok) {ix : Nat} (hx : ix < d.nx) {inp out : List α}
    (hi : inp.length = d.total) (ho : out.length = d.shell) :
    d.get_row_th_ph ix inp out = .ok (d.mk2 fun it ip => d.at3 inp ix it ip) := by
  unfold get_row_th_ph
  rw [cassert_true _ _ (by simp [hi, h.nFull_eq]), cassert_true _ _ (by simp [ho, h.nphinlat])]
  simp only [ok_bind]
  rw [forRange2_wr (n := d.shell) d.pos2 (fun it ip => d.at3 inp ix it ip)
    d.decT d.decP ho
    (fun it ip ht hp => ⟨d.pos2_lt ht hp, d.decT_pos2 ht hp, d.decP_pos2 ht hp⟩)
    (fun it ip w ht hp _ _ => by rw [h.rd3 hi ⟨hx, ht, hp⟩, h.indx2 ht hp]; rfl)]
  congr 1
  apply tab_congr
  intro k hk
  rw [if_pos]
  exact d.dec2 hk

theorem Ok.set_row_th_ph_eq (h : d.Ok) {ix : Nat} (hx : ix < d.nx) {inp out : List α}
    (hi : inp.length = d.shell) (ho : out.length = d.total) :
    d.set_row_th_ph ix inp out =
      .ok (d.mk3 fun ix' it ip => if ix' = ix then d.at2 inp it ip else d.at3 out ix' it ip) := by
  unfold set_row_th_ph
  rw [cassert_true _ _ (by simp [hi, h.nphinlat]), cassert_true _ _ (by simp [ho, h.nFull_eq])]
  simp only [ok_bind]
  rw [forRange2_wr (n := d.total) (fun it ip => d.pos3 ix it ip) (fun it ip => d.at2 inp it ip)
    d.dT d.dP ho
    (fun it ip ht hp => ⟨d.pos3_lt ⟨hx, ht, hp⟩, d.dT_pos3 ⟨hx, ht, hp⟩, d.dP_pos3 ⟨hx, ht, hp⟩⟩)
    (fun it ip w ht hp _ _ => by
      rw [rd_ok (by rw [hi, h.indx2 ht hp]; exact d.pos2_lt ht hp), h.indx3 ⟨hx, ht, hp⟩]; rfl)]
  congr 1
  apply tab_congr
  intro k hk
  obtain ⟨h1, h2⟩ := d.dec3 hk
  beta_reduce
  by_cases hc : d.dX k = ix
  · rw [if_pos hc, if_pos]
    exact ⟨h1.2.1, h1.2.2, by rw [← hc, h2]⟩
  · rw [if_neg hc, if_neg]
    · unfold at3; rw [h.indx3 h1, h2]
    · rintro ⟨h5, h4, h3⟩
      apply hc
      rw [← h3]; exact d.dX_pos3 ⟨hx, h5, h4⟩

end Dims
end SFK
