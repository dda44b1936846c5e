import Verif.Lemmas.Base
import Verif.Spec.Sphere
import Mathlib.Tactic.Ring
import Mathlib.Tactic.Linarith
import Mathlib.Data.Nat.Sqrt

namespace SFK
open Scalar

theorem forRange_inv {σ : Type} {lo hi : Nat} {s : σ} {b : Nat → σ → Exec σ} (I : Nat → σ → Prop) (hle : lo ≤ hi)
    (h0 : I lo s) (h : ∀ k s, lo ≤ k → k < hi → I k s → ∃ s', b k s = .ok s' ∧ I (k + 1) s') :
    ∃ s', forRange lo hi s b = .ok s' ∧ I hi s' := by
  unfold forRange
  have key : ∀ c i s, i + c = hi → lo ≤ i → I i s → ∃ s', forN c i s b = .ok s' ∧ I hi s' := by
    intro c
    induction c with
    | zero => intro i s hi' _ hI; exact ⟨s, rfl, by rw [← hi']; exact hI⟩
    | succ c ih =>
      intro i s hi' hl hI
      obtain ⟨s', h1, h2⟩ := h i s hl (by omega) hI
      simp only [forN, h1]
      exact ih (i + 1) s' (by omega) (by omega) h2
  exact key _ _ _ (by omega) (Nat.le_refl _) h0

theorem copyLoop_eq {β : Type} {n : Nat} {src dst : List β} (hs : src.length = n) (hd : dst.length = n) :
    copyLoop n src dst = .ok src := by
  by_cases hn : n = 0
  · subst hn
    unfold copyLoop
    rw [forRange_empty (Nat.le_refl _)]
    rw [List.length_eq_zero_iff.mp hs, List.length_eq_zero_iff.mp hd]
  · have : Inhabited β := ⟨src[0]'(by omega)⟩
    unfold copyLoop
    rw [forRange_fill (gv src) hd (fun i w hi _ _ => by rw [rd_ok (by omega)]; rfl), tab_gv' hs]

namespace Shtns
variable {α : Type} (s : Shtns α)

/-- first index of column `m` of a triangular array with `L+1` rows -/
def col (L : Nat) : Nat → Nat
  | 0 => 0
  | m + 1 => col L m + (L + 1 - m)

theorem col_two (L m : Nat) (h : m ≤ L + 1) : 2 * (col L m : Int) = m * (2 * L + 3 - m) := by
  induction m with
  | zero => simp [col]
  | succ m ih =>
    have h1 := ih (by omega)
    have : ((L + 1 - m : Nat) : Int) = L + 1 - m := by omega
    simp only [col]
    push_cast [this]
    linarith

theorem LM_eq {l m : Nat} (h : m ≤ l) (hl : l ≤ s.lmax) : s.LM l m = col s.lmax m + (l - m) := by
  have h1 := col_two s.lmax m (by omega)
  unfold LM
  have h2 : m * (2 * s.lmax + 2 - (m + 1)) = 2 * (col s.lmax m - m) ∧ m ≤ col s.lmax m := by
    have hc : m ≤ col s.lmax m := by
      have : 2 * (m : Int) ≤ 2 * col s.lmax m := by
        rw [h1]
        have : (0 : Int) ≤ m := by omega
        nlinarith
      omega
    refine ⟨?_, hc⟩
    zify [hc]
    have : ((2 * s.lmax + 2 - (m + 1) : Nat) : Int) = 2 * s.lmax + 1 - m := by omega
    rw [this]
    linarith
  omega

theorem col_mono {L a b : Nat} (h : a ≤ b) : col L a ≤ col L b := by
  induction b with
  | zero => have : a = 0 := by omega
            subst this; exact Nat.le_refl _
  | succ b ih =>
    by_cases hb : a = b + 1
    · subst hb; exact Nat.le_refl _
    · have := ih (by omega)
      simp only [col]; omega

theorem LM_inj {l m l' m' : Nat} (h : m ≤ l) (hl : l ≤ s.lmax) (h' : m' ≤ l') (hl' : l' ≤ s.lmax)
    (he : s.LM l m = s.LM l' m') : l = l' ∧ m = m' := by
  rw [s.LM_eq h hl, s.LM_eq h' hl'] at he
  have key : ∀ {a b x y : Nat}, a < b → x < s.lmax + 1 - a → col s.lmax a + x = col s.lmax b + y → False := by
    intro a b x y hab hx he
    have : col s.lmax (a + 1) ≤ col s.lmax b := col_mono hab
    simp only [col] at this
    omega
  rcases Nat.lt_trichotomy m m' with hlt | heq | hgt
  · exact (key hlt (by omega) he).elim
  · subst heq; exact ⟨by omega, rfl⟩
  · exact (key hgt (by omega) he.symm).elim

variable {s} {lmax mmax nlat nphi : Nat}

theorem Api.nlm_col (h : s.Api lmax mmax nlat nphi) : s.nlm = col lmax (mmax + 1) := by
  rw [h.nlm_eq]
  have h1 := col_two lmax (mmax + 1) (by have := h.m_le; omega)
  have h2 : ∃ k, mmax * (mmax + 1) = 2 * k := by
    rcases Nat.even_or_odd' mmax with ⟨k, hk | hk⟩
    · exact ⟨k * (mmax + 1), by rw [hk]; ring⟩
    · exact ⟨mmax * (k + 1), by rw [hk]; ring⟩
  obtain ⟨k, hk⟩ := h2
  rw [hk, Nat.mul_div_cancel_left _ (by norm_num)]
  have hm := h.m_le
  have h3 : k ≤ (mmax + 1) * (lmax + 1) := by nlinarith
  zify [h3]
  push_cast at h1
  have hk' : (mmax : Int) * (mmax + 1) = 2 * k := by exact_mod_cast hk
  nlinarith

theorem Api.LM_lt (h : s.Api lmax mmax nlat nphi) {l m : Nat} (hr : s.Res l m) : s.LM l m < s.nlm := by
  obtain ⟨h1, h2, h3⟩ := hr
  rw [s.LM_eq h1 h2, h.nlm_col, h.lmax_eq]
  rw [h.mmax_eq] at h3
  rw [h.lmax_eq] at h2
  have : col lmax (m + 1) ≤ col lmax (mmax + 1) := col_mono (by omega)
  have h4 : col lmax (m + 1) = col lmax m + (lmax + 1 - m) := rfl
  omega

theorem Api.LM_surj (h : s.Api lmax mmax nlat nphi) {k : Nat} (hk : k < s.nlm) :
    ∃ l m, s.Res l m ∧ s.LM l m = k := by
  rw [h.nlm_col] at hk
  have key : ∀ M, M ≤ mmax + 1 → k < col lmax M → ∃ m, m < M ∧ col lmax m ≤ k ∧ k < col lmax (m + 1) := by
    intro M
    induction M with
    | zero => intro _ hk; simp [col] at hk
    | succ M ih =>
      intro hM hk
      by_cases hc : k < col lmax M
      · obtain ⟨m, h1, h2⟩ := ih (by omega) hc
        exact ⟨m, by omega, h2⟩
      · exact ⟨M, by omega, by omega, hk⟩
  obtain ⟨m, h1, h2, h3⟩ := key (mmax + 1) (Nat.le_refl _) hk
  simp only [col] at h3
  have hm := h.m_le
  refine ⟨m + (k - col lmax m), m, ⟨by omega, by rw [h.lmax_eq]; omega, by rw [h.mmax_eq]; omega⟩, ?_⟩
  rw [s.LM_eq (by omega) (by rw [h.lmax_eq]; omega), h.lmax_eq]
  omega

open Classical in
/-- `(l,m)` of a coefficient position -/
noncomputable def lmOf (s : Shtns α) (k : Nat) : Nat × Nat :=
  if h : ∃ lm : Nat × Nat, s.Res lm.1 lm.2 ∧ s.LM lm.1 lm.2 = k then choose h else (0, 0)

theorem lmOf_LM {l m : Nat} (hr : s.Res l m) : s.lmOf (s.LM l m) = (l, m) := by
  have h : ∃ lm : Nat × Nat, s.Res lm.1 lm.2 ∧ s.LM lm.1 lm.2 = s.LM l m := ⟨(l, m), hr, rfl⟩
  unfold lmOf
  rw [dif_pos h]
  have h2 := Classical.choose_spec h
  have h3 := s.LM_inj h2.1.1 h2.1.2.1 hr.1 hr.2.1 h2.2
  exact Prod.ext h3.1 h3.2

/-- coefficient array with given entries -/
noncomputable def mkLM (s : Shtns α) (F : Nat → Nat → Cx α) : List (Cx α) :=
  tab s.nlm fun k => F (s.lmOf k).1 (s.lmOf k).2

@[simp] theorem mkLM_length (F : Nat → Nat → Cx α) : (s.mkLM F).length = s.nlm := by simp [mkLM]

variable [Inhabited α]

theorem Api.cf_mkLM (h : s.Api lmax mmax nlat nphi) {F : Nat → Nat → Cx α} {l m : Nat} (hr : s.Res l m) :
    s.cf (s.mkLM F) l m = F l m := by
  unfold cf mkLM
  rw [gv_tab (h.LM_lt hr), lmOf_LM hr]

theorem Api.eq_mkLM (h : s.Api lmax mmax nlat nphi) {q : List (Cx α)} {F : Nat → Nat → Cx α} (hq : q.length = s.nlm)
    (he : ∀ l m, s.Res l m → s.cf q l m = F l m) : q = s.mkLM F := by
  apply eq_tab hq
  intro k hk
  obtain ⟨l, m, hr, rfl⟩ := h.LM_surj hk
  rw [lmOf_LM hr]
  exact he l m hr

theorem Api.extLM (h : s.Api lmax mmax nlat nphi) {q q' : List (Cx α)} (hq : q.length = s.nlm)
    (hq' : q'.length = s.nlm) (he : ∀ l m, s.Res l m → s.cf q l m = s.cf q' l m) : q = q' := by
  rw [h.eq_mkLM hq he, ← h.eq_mkLM hq' (fun _ _ _ => rfl)]

omit [Inhabited α] in
theorem mkLM_congr {lmax mmax nlat nphi : Nat} (h : s.Api lmax mmax nlat nphi) {F G : Nat → Nat → Cx α}
    (he : ∀ l m, s.Res l m → F l m = G l m) : s.mkLM F = s.mkLM G := by
  apply tab_congr
  intro k hk
  obtain ⟨l, m, hr, rfl⟩ := h.LM_surj hk
  rw [lmOf_LM hr]
  exact he l m hr

end Shtns

namespace Sphere
variable {α : Type} [Scalar α]

theorem mkLap_eq (lmax : Nat) : mkLap lmax = .ok (tab lmax fun l => (-(dbl l) * (dbl l + 1) : α)) := by
  unfold mkLap
  exact forRange_fill _ (by simp) (fun i w _ _ _ => rfl)

theorem mkLow_eq (lmax : Nat) :
    mkLow lmax = .ok (tab lmax fun l => (exp (-40 * pown (dbl l / dbl lmax) 16) : α)) := by
  unfold mkLow
  exact forRange_fill _ (by simp) (fun i w _ _ _ => rfl)

theorem mk'_wf {nl nm nlat nphi na : Nat} {sht : Shtns α} {nd : Bool} (h : sht.Api nl nm nlat nphi)
    (hna : na = sht.nspat) (hnl : nl < 2 ^ 31) :
    ∃ s, mk' nl nm nlat nphi na sht nd = .ok s ∧ s.Wf ∧ s.lmax = nl ∧ s.mmax = nm ∧ s.nlat = nlat ∧ s.nphi = nphi
      ∧ s.sht = sht ∧ s.ndebug = nd := by
  unfold mk'
  rw [cassert_true _ _ (by simp [hna]), mkLap_eq, mkLow_eq]
  simp only [ok_bind]
  exact ⟨_, rfl, ⟨hnl, h, rfl, rfl, rfl, rfl⟩, rfl, rfl, rfl, rfl, rfl, rfl⟩

variable {s : Sphere α}

theorem Wf.nSph' (h : s.Wf) : s.nSph = s.nlat * s.nphi := by rw [h.nSph_eq, h.api.nspat_eq]

/-- The coefficients touched by the loops `l<_lmax, m<min(l+1,_mmax)`. -/
def Touched (s : Sphere α) (l m : Nat) : Prop := l < s.lmax ∧ m < min (l + 1) s.mmax

instance (s : Sphere α) (l m : Nat) : Decidable (s.Touched l m) := by unfold Touched; infer_instance

theorem Wf.touched_res (h : s.Wf) {l m : Nat} (ht : s.Touched l m) : s.sht.Res l m := by
  unfold Touched at ht
  refine ⟨by omega, by rw [h.api.lmax_eq]; omega, by rw [h.api.mmax_eq]; omega⟩

/-- pure form of the scaling loop -/
noncomputable def scaleP (s : Sphere α) (G : Nat → Nat → Cx α → Cx α) (q : List (Cx α)) : List (Cx α) :=
  s.sht.mkLM fun l m => if s.Touched l m then G l m (s.sht.cf q l m) else s.sht.cf q l m

@[simp] theorem scaleP_length (G : Nat → Nat → Cx α → Cx α) (q : List (Cx α)) :
    (s.scaleP G q).length = s.sht.nlm := by simp [scaleP]

theorem Wf.scaleLoop_eq (h : s.Wf) {g : Nat → Nat → Cx α → Exec (Cx α)} {G : Nat → Nat → Cx α → Cx α}
    (hg : ∀ l m z, s.Touched l m → g l m z = .ok (G l m z)) {q : List (Cx α)} (hq : q.length = s.sht.nlm) :
    s.scaleLoop g q = .ok (s.scaleP G q) := by
  unfold scaleLoop
  -- invariant after all `l<L` and, within `l=L`, `m<M`
  let I (L M : Nat) (y : List (Cx α)) : Prop := y.length = s.sht.nlm ∧ ∀ l m, s.sht.Res l m →
    s.sht.cf y l m = if s.Touched l m ∧ (l < L ∨ (l = L ∧ m < M)) then G l m (s.sht.cf q l m) else s.sht.cf q l m
  have main := forRange_inv (lo := 0) (hi := s.lmax) (s := q)
    (b := fun l y => forRange 0 (min (l + 1) s.mmax) y fun m y => do
      let z ← rd y (s.sht.LM l m)
      let z' ← g l m z
      wr y (s.sht.LM l m) z') (fun L y => I L 0 y) (Nat.zero_le _)
    ⟨hq, fun l m hr => by rw [if_neg (by omega)]⟩ ?_
  · obtain ⟨y, h1, h2, h3⟩ := main
    rw [h1]
    congr 1
    apply h.api.eq_mkLM h2
    intro l m hr
    rw [h3 l m hr]
    by_cases ht : s.Touched l m
    · rw [if_pos ⟨ht, Or.inl ht.1⟩, if_pos ht]
    · rw [if_neg (by tauto), if_neg ht]
  · intro L y _ hL hI
    have inner := forRange_inv (lo := 0) (hi := min (L + 1) s.mmax) (s := y)
      (b := fun m y => do
        let z ← rd y (s.sht.LM L m)
        let z' ← g L m z
        wr y (s.sht.LM L m) z') (fun M y => I L M y) (Nat.zero_le _) hI ?_
    · obtain ⟨y', h1, h2, h3⟩ := inner
      refine ⟨y', h1, h2, ?_⟩
      intro l m hr
      rw [h3 l m hr]
      by_cases hc : s.Touched l m ∧ (l < L ∨ l = L ∧ m < min (L + 1) s.mmax)
      · rw [if_pos hc, if_pos ⟨hc.1, by omega⟩]
      · rw [if_neg hc, if_neg]
        rintro ⟨a1, a2⟩
        apply hc
        refine ⟨a1, ?_⟩
        have := a1.2
        rcases a2 with a2 | a2
        · by_cases hlL : l < L
          · exact Or.inl hlL
          · have : l = L := by omega
            subst this
            exact Or.inr ⟨rfl, a1.2⟩
        · omega
    · intro M y _ hM ⟨hy, hI⟩
      have ht : s.Touched L M := ⟨hL, hM⟩
      have hres := h.touched_res ht
      have hlt := h.api.LM_lt hres
      rw [rd_ok (by omega)]
      simp only [ok_bind, hg L M _ ht]
      rw [wr_ok (by omega)]
      refine ⟨_, rfl, by simp [hy], ?_⟩
      intro l m hr
      unfold Shtns.cf
      rw [gv_set (by omega)]
      by_cases he : s.sht.LM L M = s.sht.LM l m
      · obtain ⟨rfl, rfl⟩ := s.sht.LM_inj hres.1 hres.2.1 hr.1 hr.2.1 he
        have h4 := hI L M hr
        rw [if_neg (by omega)] at h4
        unfold Shtns.cf at h4
        rw [if_pos rfl, if_pos ⟨ht, by omega⟩, h4]
      · rw [if_neg he]
        have h4 := hI l m hr
        unfold Shtns.cf at h4
        rw [h4]
        have : ¬ (l = L ∧ m = M) := by rintro ⟨rfl, rfl⟩; exact he rfl
        by_cases hc : s.Touched l m ∧ (l < L ∨ l = L ∧ m < M)
        · rw [if_pos hc, if_pos ⟨hc.1, by omega⟩]
        · rw [if_neg hc, if_neg]
          rintro ⟨a1, a2⟩
          exact hc ⟨a1, by omega⟩

/-- pure form of analyse / scale / synthesise -/
noncomputable def thruP (s : Sphere α) (G : Nat → Nat → Cx α → Cx α) (v : List α) : List α :=
  s.sht.shToSpat (s.scaleP G (s.sht.spatToSH v))

theorem Wf.thruP_length (h : s.Wf) (G : Nat → Nat → Cx α → Cx α) (v : List α) :
    (s.thruP G v).length = s.nSph := by
  rw [h.nSph_eq]; exact h.api.len_shToSpat _ (by simp)

theorem Wf.throughYlm_eq (h : s.Wf) {g : Nat → Nat → Cx α → Exec (Cx α)} {G : Nat → Nat → Cx α → Cx α}
    (hg : ∀ l m z, s.Touched l m → g l m z = .ok (G l m z)) (J : Junk (Cx α)) {v out : List α}
    (hv : v.length = s.nSph) (ho : out.length = s.nSph) :
    s.throughYlm J g v out = .ok (s.thruP G v) := by
  unfold throughYlm
  rw [cassert_true _ _ (by simp [hv]), cassert_true _ _ (by simp [ho])]
  simp only [ok_bind]
  rw [copyLoop_eq hv (by simp [Junk.buf])]
  simp only [ok_bind]
  unfold Shtns.callSpatToSH
  rw [if_pos ⟨by rw [hv, h.nSph_eq], by simp [Junk.buf, h.nYlm_eq]⟩]
  simp only [ok_bind]
  rw [h.scaleLoop_eq hg (h.api.len_spatToSH _ (by rw [hv, h.nSph_eq]))]
  simp only [ok_bind]
  unfold Shtns.callSHToSpat
  rw [if_pos ⟨by simp, by rw [h.api.len_clobR, hv, h.nSph_eq]⟩]
  simp only [ok_bind]
  exact copyLoop_eq (h.thruP_length _ _) ho

/-- pure Laplacian -/
noncomputable def lapP (s : Sphere α) (v : List α) : List α :=
  s.thruP (fun l _ z => Cx.smul (-(dbl l) * (dbl l + 1)) z) v

/-- pure azimuthal derivative -/
noncomputable def phiP (s : Sphere α) (v : List α) : List α :=
  s.thruP (fun _ m z => Cx.mul z (Cx.mul ⟨0, 1⟩ ⟨dbl m, 0⟩)) v

/-- the low-pass factor of sphere.cpp:55 -/
def lowF (s : Sphere α) (l : Nat) : α := exp (-40 * pown (dbl l / dbl s.lmax) 16)

/-- pure filter -/
noncomputable def filtP (s : Sphere α) (v : List α) : List α :=
  s.thruP (fun l m z => Cx.smul (s.lowF l * s.lowF m) z) v

theorem Wf.laplace_eq (h : s.Wf) (J : Junk (Cx α)) {v out : List α} (hv : v.length = s.nSph)
    (ho : out.length = s.nSph) : s.laplace_beltrami J v out = .ok (s.lapP v) := by
  apply h.throughYlm_eq _ J hv ho
  intro l m z ht
  rw [h.lap_eq, rd_tab ht.1]; rfl

theorem Wf.partial_phi_eq (h : s.Wf) (J : Junk (Cx α)) {v out : List α} (hv : v.length = s.nSph)
    (ho : out.length = s.nSph) : s.partial_phi J v out = .ok (s.phiP v) :=
  h.throughYlm_eq (fun _ _ _ _ => rfl) J hv ho

theorem Wf.filter_eq (h : s.Wf) (J : Junk (Cx α)) {v : List α} (hv : v.length = s.nSph) :
    s.filter J v = .ok (s.filtP v) := by
  apply h.throughYlm_eq _ J hv hv
  intro l m z ht
  have hm : m < s.lmax := by have := ht.1; have := ht.2; omega
  rw [h.low_eq, rd_tab ht.1]
  simp only [ok_bind]
  rw [rd_tab hm]
  rfl

theorem Wf.to_Ylm_eq (h : s.Wf) (J : Junk (Cx α)) {v : List α} {y : List (Cx α)} (hv : v.length = s.nSph)
    (hy : y.length = s.nYlm) : s.to_Ylm J v y = .ok (s.sht.spatToSH v) := by
  unfold to_Ylm
  rw [cassert_true _ _ (by simp [hv]), cassert_true _ _ (by simp [hy])]
  simp only [ok_bind]
  rw [copyLoop_eq hv (by simp [Junk.buf])]
  simp only [ok_bind]
  unfold Shtns.callSpatToSH
  rw [if_pos ⟨by rw [hv, h.nSph_eq], by simp [Junk.buf, h.nYlm_eq]⟩]
  simp only [ok_bind]
  exact copyLoop_eq (by rw [h.nYlm_eq]; exact h.api.len_spatToSH _ (by rw [hv, h.nSph_eq])) hy

theorem Wf.to_Sph_eq (h : s.Wf) (J : Junk (Cx α)) {v : List α} {y : List (Cx α)} (hy : y.length = s.nYlm)
    (hv : v.length = s.nSph) : s.to_Sph J y v = .ok (s.sht.shToSpat y) := by
  unfold to_Sph
  rw [cassert_true _ _ (by simp [hv]), cassert_true _ _ (by simp [hy])]
  simp only [ok_bind]
  rw [copyLoop_eq hy (by simp [Junk.buf])]
  simp only [ok_bind]
  unfold Shtns.callSHToSpat
  rw [if_pos ⟨by rw [hy, h.nYlm_eq], by simp [Junk.buf, h.nSph_eq]⟩]
  simp only [ok_bind]
  exact copyLoop_eq (by rw [h.nSph_eq]; exact h.api.len_shToSpat _ (by rw [hy, h.nYlm_eq])) hv

theorem Wf.ncplx_eq (h : s.Wf) : s.sht.ncplx = (s.lmax + 1) ^ 2 := by
  unfold Shtns.ncplx; rw [h.api.lmax_eq]

theorem Wf.ncp_eq (h : s.Wf) : s.sht.ncp = (s.mmax + 1) ^ 2 + (s.lmax - s.mmax) * (2 * s.mmax + 1) := by
  unfold Shtns.ncp; rw [h.api.lmax_eq, h.api.mmax_eq]

theorem Wf.ncp_le (h : s.Wf) : s.sht.ncp ≤ (s.lmax + 1) ^ 2 := by
  rw [h.ncp_eq]
  have := h.api.m_le
  obtain ⟨d, hd⟩ := Nat.exists_eq_add_of_le this
  rw [hd, Nat.add_sub_cancel_left]
  nlinarith

theorem Wf.ncp_full (h : s.Wf) (hm : s.mmax = s.lmax) : s.sht.ncp = (s.lmax + 1) ^ 2 := by
  rw [h.ncp_eq, hm]; simp

theorem Wf.to_YlmC_eq (h : s.Wf) (J : Junk (Cx α)) {v y : List (Cx α)} (hv : v.length = s.nSph)
    (hy : y.length = (s.lmax + 1) ^ 2) :
    s.to_YlmC J v y = .ok (s.sht.spatToSHC v ++ (J.buf 1 ((s.lmax + 1) ^ 2)).drop s.sht.ncp) := by
  unfold to_YlmC
  rw [cassert_true _ _ (by simp [hv]), cassert_true _ _ (by simp [hy])]
  simp only [ok_bind]
  rw [copyLoop_eq hv (by simp [Junk.buf])]
  simp only [ok_bind]
  have hle := h.ncp_le
  unfold Shtns.callSpatToSHC
  rw [if_pos ⟨by rw [hv, h.nSph_eq], by simpa [Junk.buf] using hle⟩]
  simp only [ok_bind]
  exact copyLoop_eq (by rw [List.length_append, h.api.len_spatToSHC _ (by rw [hv, h.nSph_eq])]; simp [Junk.buf]; omega) hy

theorem Wf.to_SphC_eq (h : s.Wf) (J : Junk (Cx α)) {v y : List (Cx α)} (hy : y.length = (s.lmax + 1) ^ 2)
    (hv : v.length = s.nSph) : s.to_SphC J y v = .ok (s.sht.shToSpatC (y.take s.sht.ncp)) := by
  unfold to_SphC
  rw [cassert_true _ _ (by simp [hv]), cassert_true _ _ (by simp [hy])]
  simp only [ok_bind]
  rw [copyLoop_eq hy (by simp [Junk.buf])]
  simp only [ok_bind]
  have hle := h.ncp_le
  unfold Shtns.callSHToSpatC
  rw [if_pos ⟨by rw [hy]; exact hle, by simp [Junk.buf, h.nSph_eq]⟩]
  simp only [ok_bind]
  exact copyLoop_eq (by rw [h.nSph_eq]; exact h.api.len_shToSpatC _ (by simp [hy, hle])) hv

/-! ### raise and lower -/

theorem cidx_eq {l j : Nat} (hl : l < 2 ^ 31) (hj : j ≤ 2 * l) : cidx l ((j : Int) - l) = l * l + j := by
  have h1 : l * l ≤ 2 ^ 31 * l := Nat.mul_le_mul_right _ (Nat.le_of_lt hl)
  unfold cidx toU
  rw [uadd_of_lt (a := l) (by unfold W; omega), umul_of_lt (by unfold W; rw [Nat.mul_add]; omega), Nat.mul_add]
  unfold uadd W
  generalize l * l = t at *
  omega

theorem zero_idx {l : Nat} (hl : l < 2 ^ 31) : uadd (umul l (uadd l 1)) (usub 0 l) = l * l := by
  have h1 : l * l ≤ 2 ^ 31 * l := Nat.mul_le_mul_right _ (Nat.le_of_lt hl)
  rw [uadd_of_lt (a := l) (by unfold W; omega), umul_of_lt (by unfold W; rw [Nat.mul_add]; omega), Nat.mul_add]
  unfold uadd usub W
  generalize l * l = t at *
  omega

theorem top_idx {l : Nat} (hl : l < 2 ^ 31) : uadd (umul l (uadd l 1)) l = l * l + 2 * l := by
  have h1 : l * l ≤ 2 ^ 31 * l := Nat.mul_le_mul_right _ (Nat.le_of_lt hl)
  rw [uadd_of_lt (a := l) (by unfold W; omega), umul_of_lt (by unfold W; rw [Nat.mul_add]; omega), Nat.mul_add]
  unfold uadd W
  generalize l * l = t at *
  omega

theorem sub_toU {l j : Nat} (hl : l < 2 ^ 31) (hj : j ≤ 2 * l) : usub l (toU ((j : Int) - l)) = 2 * l - j := by
  unfold usub toU W; omega

theorem add_toU {l j : Nat} (hl : l < 2 ^ 31) (hj : j ≤ 2 * l) : uadd l (toU ((j : Int) - l)) = j := by
  unfold uadd toU W; omega

theorem prod_lt {a b l : Nat} (hl : l < 2 ^ 31) (h : a + b ≤ 2 * l + 1) : a * b < W := by
  have h1 : 4 * (a * b) ≤ (2 * l + 1) * (2 * l + 1) := by nlinarith [sq_nonneg ((a : Int) - b)]
  have h2 : (2 * l + 1) * (2 * l + 1) ≤ (2 ^ 32) * (2 ^ 32) := Nat.mul_le_mul (by omega) (by omega)
  unfold W
  generalize a * b = t at *
  omega

/-- raising coefficient at block position `j=l+m` -/
def rc (l j : Nat) : α := rt (dbl ((2 * l + 1 - j) * j))
/-- lowering coefficient at block position `j=l+m` -/
def lc (l j : Nat) : α := rt (dbl ((j + 1) * (2 * l - j)))

theorem sqrt_block {l k : Nat} (h1 : l * l ≤ k) (h2 : k ≤ l * l + 2 * l) : Nat.sqrt k = l := by
  symm
  rw [Nat.eq_sqrt]
  exact ⟨h1, by ring_nf; ring_nf at h2; omega⟩

/-- pure raising operator on a coefficient array -/
def raiseP (s : Sphere α) (q : List (Cx α)) : List (Cx α) :=
  tab ((s.lmax + 1) ^ 2) fun k =>
    if k.sqrt < s.lmax then
      if k = k.sqrt * k.sqrt then ⟨0, 0⟩ else Cx.smul' (rc k.sqrt (k - k.sqrt * k.sqrt)) (gv q (k - 1))
    else gv q k

/-- pure lowering operator on a coefficient array -/
def lowerP (s : Sphere α) (q : List (Cx α)) : List (Cx α) :=
  tab ((s.lmax + 1) ^ 2) fun k =>
    if k.sqrt < s.lmax then
      if k = k.sqrt * k.sqrt + 2 * k.sqrt then ⟨0, 0⟩
      else Cx.smul' (lc k.sqrt (k - k.sqrt * k.sqrt)) (gv q (k + 1))
    else gv q k

theorem block_of_sqrt (k : Nat) : k.sqrt * k.sqrt ≤ k ∧ k ≤ k.sqrt * k.sqrt + 2 * k.sqrt := by
  have h1 := Nat.sqrt_le k
  have h2 := Nat.sqrt_le_add k
  omega

theorem sqrt_lt_iff {k L : Nat} : k.sqrt < L ↔ k < L * L := Nat.sqrt_lt

theorem Wf.raiseLoop_eq (h : s.Wf) {q : List (Cx α)} (hq : q.length = (s.lmax + 1) ^ 2) :
    s.raiseLoop q = .ok (s.raiseP q) := by
  unfold raiseLoop
  have hL := h.lmax_lt
  rw [forRange_closed (fun L => tab ((s.lmax + 1) ^ 2) fun k =>
    if k.sqrt < L then
      if k = k.sqrt * k.sqrt then (⟨0, 0⟩ : Cx α)
      else Cx.smul' (rc k.sqrt (k - k.sqrt * k.sqrt)) (gv q (k - 1))
    else gv q k) (Nat.zero_le _)]
  · rfl
  · apply eq_tab hq
    intro k _
    rw [if_neg (by omega)]
  · intro l _ hl
    have hll : l * l + 2 * l + 1 = (l + 1) * (l + 1) := by ring
    have hN : l * l + 2 * l < (s.lmax + 1) ^ 2 := by
      have : (l + 1) * (l + 1) ≤ (s.lmax + 1) * (s.lmax + 1) := Nat.mul_le_mul (by omega) (by omega)
      rw [pow_two]; omega
    have hl31 : l < 2 ^ 31 := by omega
    rw [forRange_closed (fun j0 => tab ((s.lmax + 1) ^ 2) fun k =>
      if k.sqrt < l then
        if k = k.sqrt * k.sqrt then (⟨0, 0⟩ : Cx α)
        else Cx.smul' (rc k.sqrt (k - k.sqrt * k.sqrt)) (gv q (k - 1))
      else if l * l + 2 * l - j0 < k ∧ k ≤ l * l + 2 * l then
        Cx.smul' (rc l (k - l * l)) (gv q (k - 1))
      else gv q k) (Nat.zero_le _)]
    · simp only [ok_bind]
      rw [zero_idx hl31]
      apply wr_tab (by omega)
      · beta_reduce
        rw [sqrt_block (Nat.le_refl _) (by omega), if_pos (by omega), if_pos rfl]
      · intro k hk hne
        beta_reduce
        obtain ⟨b1, b2⟩ := block_of_sqrt k
        by_cases h1 : k.sqrt < l
        · rw [if_pos h1, if_pos (by omega)]
        · rw [if_neg h1]
          by_cases h2 : k.sqrt = l
          · rw [h2] at b1 b2
            rw [if_pos (show k.sqrt < l + 1 by omega), h2, if_neg (by omega), if_pos (by omega)]
          · rw [if_neg (by omega), if_neg]
            rintro ⟨_, h4⟩
            have : (l + 1) * (l + 1) ≤ k.sqrt * k.sqrt := Nat.mul_le_mul (by omega) (by omega)
            omega
    · apply tab_congr
      intro k hk
      by_cases h1 : k.sqrt < l
      · rw [if_pos h1, if_pos h1]
      · rw [if_neg h1, if_neg h1, if_neg (by omega)]
    · intro j _ hj
      have e1 : ((l : Int) - (j : Nat)) = ((2 * l - j : Nat) : Int) - l := by omega
      have e2 : ((l : Int) - (j : Nat)) - 1 = ((2 * l - j - 1 : Nat) : Int) - l := by omega
      beta_reduce
      simp only []
      rw [e2, e1, cidx_eq hl31 (by omega), cidx_eq hl31 (by omega), sub_toU hl31 (by omega),
        add_toU hl31 (by omega), uadd_of_lt (by unfold W; omega), umul_of_lt (prod_lt hl31 (by omega)),
        rd_tab (by omega)]
      simp only [ok_bind]
      rw [sqrt_block (l := l) (by omega) (by omega), if_neg (by omega), if_neg (by omega)]
      apply wr_tab (by omega)
      · beta_reduce
        rw [sqrt_block (l := l) (by omega) (by omega), if_neg (by omega), if_pos (by omega)]
        unfold rc
        congr 4
        · omega
        · omega
        · omega
      · intro k hk hne
        beta_reduce
        by_cases h1 : k.sqrt < l
        · rw [if_pos h1, if_pos h1]
        · rw [if_neg h1, if_neg h1]
          by_cases h2 : l * l + 2 * l - j < k ∧ k ≤ l * l + 2 * l
          · rw [if_pos h2, if_pos (by omega)]
          · rw [if_neg h2, if_neg (by omega)]

theorem Wf.lowerLoop_eq (h : s.Wf) {q : List (Cx α)} (hq : q.length = (s.lmax + 1) ^ 2) :
    s.lowerLoop q = .ok (s.lowerP q) := by
  unfold lowerLoop
  have hL := h.lmax_lt
  rw [forRange_closed (fun L => tab ((s.lmax + 1) ^ 2) fun k =>
    if k.sqrt < L then
      if k = k.sqrt * k.sqrt + 2 * k.sqrt then (⟨0, 0⟩ : Cx α)
      else Cx.smul' (lc k.sqrt (k - k.sqrt * k.sqrt)) (gv q (k + 1))
    else gv q k) (Nat.zero_le _)]
  · rfl
  · apply eq_tab hq
    intro k _
    rw [if_neg (by omega)]
  · intro l _ hl
    have hll : l * l + 2 * l + 1 = (l + 1) * (l + 1) := by ring
    have hN : l * l + 2 * l < (s.lmax + 1) ^ 2 := by
      have : (l + 1) * (l + 1) ≤ (s.lmax + 1) * (s.lmax + 1) := Nat.mul_le_mul (by omega) (by omega)
      rw [pow_two]; omega
    have hl31 : l < 2 ^ 31 := by omega
    rw [forRange_closed (fun j0 => tab ((s.lmax + 1) ^ 2) fun k =>
      if k.sqrt < l then
        if k = k.sqrt * k.sqrt + 2 * k.sqrt then (⟨0, 0⟩ : Cx α)
        else Cx.smul' (lc k.sqrt (k - k.sqrt * k.sqrt)) (gv q (k + 1))
      else if l * l ≤ k ∧ k < l * l + j0 then
        Cx.smul' (lc l (k - l * l)) (gv q (k + 1))
      else gv q k) (Nat.zero_le _)]
    · simp only [ok_bind]
      rw [top_idx hl31]
      apply wr_tab (by omega)
      · beta_reduce
        rw [sqrt_block (l := l) (by omega) (by omega), if_pos (by omega), if_pos rfl]
      · intro k hk hne
        beta_reduce
        obtain ⟨b1, b2⟩ := block_of_sqrt k
        by_cases h1 : k.sqrt < l
        · rw [if_pos h1, if_pos (by omega)]
        · rw [if_neg h1]
          by_cases h2 : k.sqrt = l
          · rw [h2] at b1 b2
            rw [if_pos (show k.sqrt < l + 1 by omega), h2, if_neg (by omega), if_pos (by omega)]
          · rw [if_neg (by omega), if_neg]
            rintro ⟨_, h4⟩
            have : (l + 1) * (l + 1) ≤ k.sqrt * k.sqrt := Nat.mul_le_mul (by omega) (by omega)
            omega
    · apply tab_congr
      intro k hk
      by_cases h1 : k.sqrt < l
      · rw [if_pos h1, if_pos h1]
      · rw [if_neg h1, if_neg h1, if_neg (by omega)]
    · intro j _ hj
      have e1 : (-(l : Int) + (j : Nat)) = ((j : Nat) : Int) - l := by omega
      have e2 : (-(l : Int) + (j : Nat)) + 1 = ((j + 1 : Nat) : Int) - l := by omega
      beta_reduce
      simp only []
      rw [e2, e1, cidx_eq hl31 (by omega), cidx_eq hl31 (by omega), sub_toU hl31 (by omega),
        add_toU hl31 (by omega), uadd_of_lt (by unfold W; omega), umul_of_lt (prod_lt hl31 (by omega)),
        rd_tab (by omega)]
      simp only [ok_bind]
      rw [sqrt_block (l := l) (by omega) (by omega), if_neg (by omega), if_neg (by omega)]
      apply wr_tab (by omega)
      · beta_reduce
        rw [sqrt_block (l := l) (by omega) (by omega), if_neg (by omega), if_pos (by omega)]
        unfold lc
        rw [Nat.add_sub_cancel_left, Nat.add_assoc]
      · intro k hk hne
        beta_reduce
        by_cases h1 : k.sqrt < l
        · rw [if_pos h1, if_pos h1]
        · rw [if_neg h1, if_neg h1]
          by_cases h2 : l * l ≤ k ∧ k < l * l + j
          · rw [if_pos h2, if_pos (by omega)]
          · rw [if_neg h2, if_neg (by omega)]

/-- the coefficient buffer of `raise` and `lower` after the analysis, had it been filled with zeros before -/
def bufC (s : Sphere α) (q : List (Cx α)) : List (Cx α) := q ++ List.replicate ((s.lmax + 1) ^ 2 - s.sht.ncp) ⟨0, 0⟩

/-- pure analyse / ladder / synthesise -/
def ladP (s : Sphere α) (R : List (Cx α) → List (Cx α)) (v : List α) : List (Cx α) :=
  s.sht.shToSpatC ((R (s.bufC (s.sht.spatToSHC (v.map Cx.ofRe)))).take s.sht.ncp)

theorem Wf.bufC_length (h : s.Wf) {q : List (Cx α)} (hq : q.length = s.sht.ncp) : (s.bufC q).length = (s.lmax + 1) ^ 2 := by
  have := h.ncp_le
  simp [bufC, hq]; omega

theorem gv_bufC {q : List (Cx α)} (hq : q.length = s.sht.ncp) {k : Nat} (hk : k < s.sht.ncp) : gv (s.bufC q) k = gv q k := by
  unfold bufC gv
  rw [List.getElem?_append_left (by omega)]

theorem gv_app {q t : List (Cx α)} {k : Nat} (hk : k < q.length) : gv (q ++ t) k = gv q k := by
  unfold gv
  rw [List.getElem?_append_left hk]

theorem Wf.throughYlmC_eq (h : s.Wf) {loop : List (Cx α) → Exec (List (Cx α))} {R : List (Cx α) → List (Cx α)}
    (hl : ∀ q, q.length = (s.lmax + 1) ^ 2 → loop q = .ok (R q))
    (hR : ∀ q, q.length = (s.lmax + 1) ^ 2 → (R q).length = (s.lmax + 1) ^ 2) (J : Junk (Cx α)) {v : List α}
    {out : List (Cx α)} (hv : v.length = s.nSph) (ho : out.length = s.nSph) :
    s.throughYlmC J loop v out = .ok (s.sht.shToSpatC ((R (s.sht.spatToSHC (v.map Cx.ofRe)
      ++ (J.buf 1 ((s.lmax + 1) ^ 2)).drop s.sht.ncp)).take s.sht.ncp)) := by
  unfold throughYlmC
  rw [cassert_true _ _ (by simp [hv]), cassert_true _ _ (by simp [ho])]
  simp only [ok_bind]
  rw [forRange_fill (fun i => Cx.ofRe (gv v i)) (by simp [Junk.buf])
    (fun i w hi _ _ => by rw [rd_ok (by omega)]; rfl)]
  simp only [ok_bind]
  have hm : (tab s.nSph fun i => Cx.ofRe (gv v i)) = v.map Cx.ofRe := by
    symm
    apply eq_tab (by simp [hv])
    intro i hi
    unfold gv
    rw [List.getElem?_map, List.getElem?_eq_getElem (by omega)]
    rfl
  rw [hm]
  have hle := h.ncp_le
  unfold Shtns.callSpatToSHC
  have hvl : (v.map Cx.ofRe).length = s.sht.nspat := by simp [hv, h.nSph_eq]
  rw [if_pos ⟨hvl, by simpa [Junk.buf] using hle⟩]
  simp only [ok_bind]
  have hq : (s.sht.spatToSHC (v.map Cx.ofRe) ++ (J.buf 1 ((s.lmax + 1) ^ 2)).drop s.sht.ncp).length = (s.lmax + 1) ^ 2 := by
    rw [List.length_append, h.api.len_spatToSHC _ hvl]; simp [Junk.buf]; omega
  rw [hl _ hq]
  simp only [ok_bind]
  unfold Shtns.callSHToSpatC
  rw [if_pos ⟨by rw [hR _ hq]; exact hle, by rw [h.api.len_clobY, hvl]⟩]
  simp only [ok_bind]
  exact copyLoop_eq (by rw [h.nSph_eq]; exact h.api.len_shToSpatC _ (by simp [hR _ hq, hle])) ho

/-- what `raise` puts into the part of the buffer the library reads depends only on the part the library wrote -/
theorem Wf.raiseP_prefix (h : s.Wf) {q t t' : List (Cx α)} (hq : q.length = s.sht.ncp) :
    (s.raiseP (q ++ t)).take s.sht.ncp = (s.raiseP (q ++ t')).take s.sht.ncp := by
  have hle := h.ncp_le
  apply list_ext_gv (by simp [raiseP])
  intro k hk
  have hk : k < s.sht.ncp := by simp [raiseP] at hk; omega
  have e : ∀ r : List (Cx α), gv (r.take s.sht.ncp) k = gv r k := by
    intro r; unfold gv; rw [List.getElem?_take_of_lt hk]
  rw [e, e]
  unfold raiseP
  rw [gv_tab (by omega), gv_tab (by omega), gv_app (by omega), gv_app (by omega), gv_app (by omega), gv_app (by omega)]

/-- the same for `lower`, if the loop does not reach the part the library did not write -/
theorem Wf.lowerP_prefix (h : s.Wf) (hd : s.lmax ^ 2 ≤ s.sht.ncp) {q t t' : List (Cx α)} (hq : q.length = s.sht.ncp) :
    (s.lowerP (q ++ t)).take s.sht.ncp = (s.lowerP (q ++ t')).take s.sht.ncp := by
  have hle := h.ncp_le
  apply list_ext_gv (by simp [lowerP])
  intro k hk
  have hk : k < s.sht.ncp := by simp [lowerP] at hk; omega
  have e : ∀ r : List (Cx α), gv (r.take s.sht.ncp) k = gv r k := by
    intro r; unfold gv; rw [List.getElem?_take_of_lt hk]
  rw [e, e]
  unfold lowerP
  rw [gv_tab (by omega), gv_tab (by omega), gv_app (q := q) (k := k) (by omega), gv_app (q := q) (k := k) (by omega)]
  by_cases h1 : k.sqrt < s.lmax
  · rw [if_pos h1, if_pos h1]
    by_cases h2 : k = k.sqrt * k.sqrt + 2 * k.sqrt
    · rw [if_pos h2, if_pos h2]
    · have hb := block_of_sqrt k
      have : (k.sqrt + 1) * (k.sqrt + 1) ≤ s.lmax * s.lmax := Nat.mul_le_mul (by omega) (by omega)
      have e1 : (k.sqrt + 1) * (k.sqrt + 1) = k.sqrt * k.sqrt + 2 * k.sqrt + 1 := by ring
      rw [if_neg h2, if_neg h2, gv_app (by rw [pow_two] at hd; omega), gv_app (by rw [pow_two] at hd; omega)]
  · rw [if_neg h1, if_neg h1]

theorem Wf.raise_eq (h : s.Wf) (J : Junk (Cx α)) {v : List α} {out : List (Cx α)} (hv : v.length = s.nSph)
    (ho : out.length = s.nSph) : s.raise J v out = .ok (s.ladP s.raiseP v) := by
  unfold raise
  rw [h.throughYlmC_eq (fun _ hq => h.raiseLoop_eq hq) (fun _ _ => by simp [raiseP]) J hv ho]
  unfold ladP bufC
  rw [h.raiseP_prefix (h.api.len_spatToSHC _ (by simp [hv, h.nSph_eq]))]

theorem Wf.lower_eq (h : s.Wf) (hd : s.lmax ^ 2 ≤ s.sht.ncp) (J : Junk (Cx α)) {v : List α} {out : List (Cx α)} (hv : v.length = s.nSph)
    (ho : out.length = s.nSph) : s.lower J v out = .ok (s.ladP s.lowerP v) := by
  unfold lower
  rw [h.throughYlmC_eq (fun _ hq => h.lowerLoop_eq hq) (fun _ _ => by simp [lowerP]) J hv ho]
  unfold ladP bufC
  rw [h.lowerP_prefix hd (h.api.len_spatToSHC _ (by simp [hv, h.nSph_eq]))]

theorem Wf.ladP_length (h : s.Wf) {R : List (Cx α) → List (Cx α)}
    (hR : ∀ q, q.length = (s.lmax + 1) ^ 2 → (R q).length = (s.lmax + 1) ^ 2) {v : List α}
    (hv : v.length = s.nSph) : (s.ladP R v).length = s.nSph := by
  unfold ladP
  have hq := h.bufC_length (h.api.len_spatToSHC (v.map Cx.ofRe) (by simp [hv, h.nSph_eq]))
  have hle := h.ncp_le
  rw [h.nSph_eq]
  exact h.api.len_shToSpatC _ (by simp [hR _ hq, hle])

/-- pure angular gradient square -/
noncomputable def sphXP (s : Sphere α) (v : List α) : List α :=
  tab s.nSph fun i => -(Cx.mul (gv (s.ladP s.raiseP v) i) (gv (s.ladP s.lowerP v) i)).re + pown (gv (s.phiP v) i) 2

theorem Wf.sphereX_eq (h : s.Wf) (hd : s.lmax ^ 2 ≤ s.sht.ncp) (J : Junk (Cx α)) {v out : List α} (hv : v.length = s.nSph)
    (ho : out.length = s.nSph) : s.sphereX J v out = .ok (s.sphXP v) := by
  unfold sphereX
  rw [cassert_true _ _ (by simp [hv]), cassert_true _ _ (by simp [ho])]
  simp only [ok_bind]
  rw [h.raise_eq _ hv (by simp)]
  simp only [ok_bind]
  rw [h.lower_eq hd _ hv (by simp)]
  simp only [ok_bind]
  rw [h.partial_phi_eq _ hv (by simp)]
  simp only [ok_bind]
  have l1 : (s.ladP s.raiseP v).length = s.nSph := h.ladP_length (fun _ _ => by simp [raiseP]) hv
  have l2 : (s.ladP s.lowerP v).length = s.nSph := h.ladP_length (fun _ _ => by simp [lowerP]) hv
  have l3 : (s.phiP v).length = s.nSph := h.thruP_length _ _
  apply forRange_fill _ ho
  intro i w hi _ _
  rw [rd_ok (by omega)]
  simp only [ok_bind]
  rw [rd_ok (by omega)]
  simp only [ok_bind]
  rw [rd_ok (by omega)]
  rfl

/-- what `lower` returns, given what the uninitialised memory held -/
def lowJ (s : Sphere α) (J : Junk (Cx α)) (v : List α) : List (Cx α) :=
  s.sht.shToSpatC ((s.lowerP (s.sht.spatToSHC (v.map Cx.ofRe) ++ (J.buf 1 ((s.lmax + 1) ^ 2)).drop s.sht.ncp)).take s.sht.ncp)

theorem Wf.lower_junk_eq (h : s.Wf) (J : Junk (Cx α)) {v : List α} {out : List (Cx α)} (hv : v.length = s.nSph)
    (ho : out.length = s.nSph) : s.lower J v out = .ok (s.lowJ J v) := by
  unfold lower
  exact h.throughYlmC_eq (fun _ hq => h.lowerLoop_eq hq) (fun _ _ => by simp [lowerP]) J hv ho

theorem Wf.lowJ_length (h : s.Wf) (J : Junk (Cx α)) {v : List α} (hv : v.length = s.nSph) : (s.lowJ J v).length = s.nSph := by
  unfold lowJ
  have hq := h.api.len_spatToSHC (v.map Cx.ofRe) (by simp [hv, h.nSph_eq])
  have hle := h.ncp_le
  rw [h.nSph_eq]
  refine h.api.len_shToSpatC _ ?_
  rw [List.length_take]
  simp only [lowerP, tab_length]
  omega

/-- angular gradient square, given what the uninitialised memory held -/
noncomputable def sphXJ (s : Sphere α) (J : Junk (Cx α)) (v : List α) : List α :=
  tab s.nSph fun i => -(Cx.mul (gv (s.ladP s.raiseP v) i) (gv (s.lowJ (J.sub 1) v) i)).re + pown (gv (s.phiP v) i) 2

theorem Wf.sphereX_junk_eq (h : s.Wf) (J : Junk (Cx α)) {v out : List α} (hv : v.length = s.nSph)
    (ho : out.length = s.nSph) : s.sphereX J v out = .ok (s.sphXJ J v) := by
  unfold sphereX
  rw [cassert_true _ _ (by simp [hv]), cassert_true _ _ (by simp [ho])]
  simp only [ok_bind]
  rw [h.raise_eq _ hv (by simp)]
  simp only [ok_bind]
  rw [h.lower_junk_eq _ hv (by simp)]
  simp only [ok_bind]
  rw [h.partial_phi_eq _ hv (by simp)]
  simp only [ok_bind]
  have l1 : (s.ladP s.raiseP v).length = s.nSph := h.ladP_length (fun _ _ => by simp [raiseP]) hv
  have l2 : (s.lowJ (J.sub 1) v).length = s.nSph := h.lowJ_length _ hv
  have l3 : (s.phiP v).length = s.nSph := h.thruP_length _ _
  apply forRange_fill _ ho
  intro i w hi _ _
  rw [rd_ok (by omega)]
  simp only [ok_bind]
  rw [rd_ok (by omega)]
  simp only [ok_bind]
  rw [rd_ok (by omega)]
  rfl

/-! ### power spectrum -/

/-- squared modulus -/
def nrm2 (z : Cx α) : α := pown z.re 2 + pown z.im 2

/-- accumulated power of mode `l` after `j` values of `m≥1` -/
def powAcc (s : Sphere α) (q : List (Cx α)) (l : Nat) : Nat → α
  | 0 => nrm2 (s.sht.cf q l 0)
  | j + 1 => powAcc s q l j + 2 * nrm2 (s.sht.cf q l (j + 1))

/-- pure power spectrum of a coefficient array -/
def powP (s : Sphere α) (q : List (Cx α)) : List α :=
  tab s.lmax fun l => s.powAcc q l (min (l + 1) s.mmax - 1)

theorem Wf.powerLoop_eq (h : s.Wf) {q : List (Cx α)} {p : List α} (hq : q.length = s.sht.nlm)
    (hp : p.length = s.lmax) : s.powerLoop q p = .ok (s.powP q) := by
  unfold powerLoop
  rw [forRange_closed (fun L => tab s.lmax fun l =>
    if l < L then s.powAcc q l (min (l + 1) s.mmax - 1) else gv p l) (Nat.zero_le _)]
  · congr 1
    apply tab_congr
    intro l hl
    rw [if_pos hl]
  · apply eq_tab hp
    intro l _
    rw [if_neg (by omega)]
  · intro l _ hl
    beta_reduce
    have hr : ∀ m, m ≤ l → m ≤ s.mmax → s.sht.LM l m < q.length := by
      intro m h1 h2
      rw [hq]
      exact h.api.LM_lt ⟨h1, by rw [h.api.lmax_eq]; omega, by rw [h.api.mmax_eq]; omega⟩
    rw [rd_ok (hr 0 (by omega) (by omega))]
    simp only [ok_bind]
    rw [wr_tab (f' := fun l' => if l' < l then s.powAcc q l' (min (l' + 1) s.mmax - 1)
      else if l' = l then s.powAcc q l 0 else gv p l') hl]
    · simp only [ok_bind]
      by_cases hM : min (l + 1) s.mmax ≤ 1
      · rw [forRange_empty hM]
        congr 1
        apply tab_congr
        intro l' _
        by_cases h1 : l' < l
        · rw [if_pos h1, if_pos (by omega)]
        · rw [if_neg h1]
          by_cases h2 : l' = l
          · rw [if_pos h2, if_pos (by omega), h2]
            congr 1; omega
          · rw [if_neg h2, if_neg (by omega)]
      · rw [forRange_closed (fun m => tab s.lmax fun l' =>
          if l' < l then s.powAcc q l' (min (l' + 1) s.mmax - 1)
          else if l' = l then s.powAcc q l (m - 1) else gv p l') (by omega)]
        · congr 1
          apply tab_congr
          intro l' _
          by_cases h1 : l' < l
          · rw [if_pos h1, if_pos (by omega)]
          · rw [if_neg h1]
            by_cases h2 : l' = l
            · rw [if_pos h2, if_pos (by omega), h2]
            · rw [if_neg h2, if_neg (by omega)]
        · rfl
        · intro m hm1 hm2
          rw [rd_ok (hr m (by omega) (by omega))]
          simp only [ok_bind]
          rw [rd_tab hl]
          simp only [ok_bind]
          rw [if_neg (by omega), if_pos trivial]
          apply wr_tab hl
          · beta_reduce
            rw [if_neg (by omega), if_pos rfl]
            obtain ⟨j, rfl⟩ : ∃ j, m = j + 1 := ⟨m - 1, by omega⟩
            rfl
          · intro l' _ hne
            beta_reduce
            by_cases h1 : l' < l
            · rw [if_pos h1, if_pos h1]
            · rw [if_neg h1, if_neg h1, if_neg (by omega), if_neg (by omega)]
    · beta_reduce
      rw [if_neg (by omega), if_pos rfl]; rfl
    · intro l' _ hne
      beta_reduce
      by_cases h1 : l' < l
      · rw [if_pos h1, if_pos h1]
      · rw [if_neg h1, if_neg h1, if_neg (by omega)]

theorem Wf.power_spectrum_eq (h : s.Wf) (J : Junk (Cx α)) {v p : List α} (hv : v.length = s.nSph)
    (hp : p.length = s.lmax) : s.power_spectrum J v p = .ok (s.powP (s.sht.spatToSH v)) := by
  unfold power_spectrum
  rw [cassert_true _ _ (by simp [hv]), cassert_true _ _ (by simp [hp])]
  simp only [ok_bind]
  rw [copyLoop_eq hv (by simp [Junk.buf])]
  simp only [ok_bind]
  unfold Shtns.callSpatToSH
  rw [if_pos ⟨by rw [hv, h.nSph_eq], by simp [Junk.buf, h.nYlm_eq]⟩]
  simp only [ok_bind]
  exact h.powerLoop_eq (h.api.len_spatToSH _ (by rw [hv, h.nSph_eq])) hp

/-- unit coefficient array -/
noncomputable def unitLM (s : Sphere α) (l m : Nat) : List (Cx α) :=
  s.sht.mkLM fun l' m' => if l' = l ∧ m' = m then ⟨1, 0⟩ else ⟨0, 0⟩

theorem Wf.compute_ylm_eq (h : s.Wf) (J : Junk (Cx α)) {l m : Nat} (hr : s.sht.Res l m) :
    s.compute_ylm J l m = .ok (s.sht.shToSpat (s.unitLM l m)) := by
  unfold compute_ylm
  have hlt := h.api.LM_lt hr
  rw [wr_ok (by simp [h.nYlm_eq, hlt])]
  simp only [ok_bind]
  have : (List.replicate s.nYlm (⟨0, 0⟩ : Cx α)).set (s.sht.LM l m) ⟨1, 0⟩ = s.unitLM l m := by
    apply h.api.eq_mkLM (by simp [h.nYlm_eq])
    intro l' m' hr'
    unfold Shtns.cf
    rw [gv_set (by simp [h.nYlm_eq, hlt])]
    by_cases he : s.sht.LM l m = s.sht.LM l' m'
    · obtain ⟨rfl, rfl⟩ := s.sht.LM_inj hr.1 hr.2.1 hr'.1 hr'.2.1 he
      rw [if_pos rfl, if_pos ⟨rfl, rfl⟩]
    · rw [if_neg he, if_neg (by rintro ⟨rfl, rfl⟩; exact he rfl), replicate_eq_tab,
        gv_tab (by rw [h.nYlm_eq]; exact h.api.LM_lt hr')]
  rw [this]
  exact h.to_Sph_eq J (by simp [unitLM, h.nYlm_eq]) (by simp)

end Sphere
end SFK
