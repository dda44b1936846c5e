import Verif.Lemmas.Base
import Verif.Model.Cheb

namespace SFK
open Scalar
variable {α : Type} [Scalar α]

namespace Cheb

/-- A constructed object: array lengths, admissible size, and a transform that returns `n` numbers. -/
structure Wf (c : Cheb α) : Prop where
  two : 2 ≤ c.n
  ltW : c.n < W
  pts : c.pts.length = c.n
  low : c.lowPass.length = c.n
  dct : ∀ v, v.length = c.n → (c.dct v).length = c.n

/-- normalisation of `to_ch` -/
def toChV (n : Nat) (y : Nat → α) (k : Nat) : α :=
  if k = 0 ∨ k = n - 1 then y k / (2 * dbl (n - 1)) else y k / dbl (n - 1)

/-- halving of `to_po` -/
def halfV (n : Nat) (y : Nat → α) (k : Nat) : α := if k = 0 ∨ k = n - 1 then y k else y k / 2

/-- coefficients of the derivative (before halving entry 0); `a` are the truncated coefficients -/
def dV (n : Nat) (a : Nat → α) (k : Nat) : α :=
  if k + 2 < n then 2 * dbl (k + 1) * a (k + 1) + dV n a (k + 2) else 0
termination_by n - k

/-- the two top coefficients are set to zero -/
def truncV (n : Nat) (a : Nat → α) (k : Nat) : α := if k + 2 < n then a k else 0

def toChP (c : Cheb α) (v : List α) : List α := tab c.n (toChV c.n (gv (c.dct v)))
def halfP (c : Cheb α) (a : List α) : List α := tab c.n (halfV c.n (gv a))
def toPoP (c : Cheb α) (a : List α) : List α := c.dct (c.halfP a)
def dcoef (n : Nat) (a : Nat → α) (k : Nat) : α :=
  if k = 0 then dV n (truncV n a) 0 / 2 else dV n (truncV n a) k
def derP (c : Cheb α) (v : List α) : List α :=
  tab c.n fun i => gv (c.toPoP (tab c.n (dcoef c.n (gv (c.toChP v))))) i / c.jacobian
def filterP (c : Cheb α) (v : List α) : List α :=
  c.toPoP (tab c.n fun i => gv (c.toChP v) i * gv c.lowPass i)

theorem fftw_eq {c : Cheb α} (h : c.Wf) {v o : List α} (hv : v.length = c.n) (ho : o.length = c.n) :
    c.fftw v o = .ok (c.dct v) := by
  unfold fftw
  rw [if_pos ⟨Nat.le_of_eq hv.symm, Nat.le_of_eq ho.symm⟩, ← hv, List.take_length, hv, ← ho, List.drop_length, List.append_nil]

theorem to_ch_eq {c : Cheb α} (h : c.Wf) {v o : List α} (hv : v.length = c.n) (ho : o.length = c.n) :
    c.to_ch v o = .ok (c.toChP v) := by
  have h2 := h.two
  have hW := h.ltW
  unfold to_ch
  rw [cassert_true _ _ (by simp [hv]), cassert_true _ _ (by simp [ho])]
  simp only [ok_bind]
  rw [fftw_eq h hv ho, usub_of_le hW (by omega : 1 ≤ c.n)]
  simp only [ok_bind]
  have hl := h.dct v hv
  rw [rd_ok (by omega)]
  simp only [ok_bind]
  rw [wr_ok (by omega)]
  simp only [ok_bind]
  rw [rd_ok (by simp; omega)]
  simp only [ok_bind]
  rw [wr_ok (by simp; omega)]
  simp only [ok_bind]
  rw [forRange_wr (n := c.n) (fun i => i) (fun i => gv (c.dct v) i / dbl (c.n - 1)) (fun i => i)
    (by simp [hl]) (by omega) (fun i _ hi => ⟨by omega, rfl⟩)
    (fun i w h1 hi hw hg => by
      rw [rd_ok (by omega), hg, ok_bind, gv_set (by simp; omega), if_neg (by omega), gv_set (by omega),
        if_neg (by omega)])]
  congr 1
  apply tab_congr
  intro j hj
  unfold toChV
  by_cases hI : 1 ≤ j ∧ j < c.n - 1
  · rw [if_pos (by omega), if_neg (by omega)]
  · rw [if_neg (by omega), if_pos (by omega), gv_set (by simp; omega), gv_set (by omega), gv_set (by omega)]
    rcases (by omega : j = 0 ∨ (j ≠ 0 ∧ j = c.n - 1)) with e | ⟨e1, e⟩
    · subst e; rw [if_neg (by omega), if_pos rfl]
    · rw [if_pos e.symm, if_neg (by omega), e]

theorem to_po_eq {c : Cheb α} (h : c.Wf) {a o : List α} (ha : a.length = c.n) (ho : o.length = c.n) :
    c.to_po a o = .ok (c.halfP a, c.toPoP a) := by
  have h2 := h.two
  have hW := h.ltW
  have e : forRange 1 (usub c.n 1) a (fun i ch => do
      let x ← rd ch i
      wr ch i (x / 2)) = .ok (c.halfP a) := by
    rw [usub_of_le hW (by omega : 1 ≤ c.n)]
    rw [forRange_wr (n := c.n) (fun i => i) (fun i => gv a i / 2) (fun i => i)
      ha (by omega) (fun i _ hi => ⟨by omega, rfl⟩)
      (fun i w h1 hi hw hg => by rw [rd_ok (by omega), hg, ok_bind])]
    unfold halfP
    congr 1
    apply tab_congr
    intro j hj
    unfold halfV
    by_cases hI : 1 ≤ j ∧ j < c.n - 1
    · rw [if_pos (by omega), if_neg (by omega)]
    · rw [if_neg (by omega), if_pos (by omega)]
  unfold to_po
  rw [cassert_true _ _ (by simp [ha]), cassert_true _ _ (by simp [ho])]
  rw [ok_bind, ok_bind, e, ok_bind, fftw_eq h (by simp [halfP]) ho, ok_bind]
  rfl

@[simp] theorem toChP_length (c : Cheb α) (v : List α) : (c.toChP v).length = c.n := by simp [toChP]
@[simp] theorem halfP_length (c : Cheb α) (v : List α) : (c.halfP v).length = c.n := by simp [halfP]
theorem Wf.toPoP_length {c : Cheb α} (h : c.Wf) (v : List α) : (c.toPoP v).length = c.n := h.dct _ (by simp)
@[simp] theorem derP_length (c : Cheb α) (v : List α) : (c.derP v).length = c.n := by simp [derP]
theorem Wf.filterP_length {c : Cheb α} (h : c.Wf) (v : List α) : (c.filterP v).length = c.n := h.toPoP_length _

theorem der_eq {c : Cheb α} (h : c.Wf) {v dv : List α} (hv : v.length = c.n) (hd : dv.length = c.n) :
    c.der v dv = .ok (c.derP v) := by
  have h2 := h.two
  have hW := h.ltW
  unfold der
  dsimp only
  rw [cassert_true _ _ (by simp [hv]), cassert_true _ _ (by simp [hd])]
  simp only [ok_bind]
  rw [to_ch_eq h hv (by simp), usub_of_le hW (by omega : 1 ≤ c.n), usub_of_le hW h2]
  simp only [ok_bind]
  rw [wr_ok (by simp; omega)]
  simp only [ok_bind]
  rw [wr_ok (by simp; omega)]
  simp only [ok_bind]
  have e : ((c.toChP v).set (c.n - 1) 0).set (c.n - 2) 0 = tab c.n (truncV c.n (gv (c.toChP v))) := by
    apply eq_tab (by simp)
    intro k hk
    rw [gv_set (by simp; omega), gv_set (by simp; omega)]
    unfold truncV
    by_cases hk2 : k + 2 < c.n
    · rw [if_pos hk2, if_neg (by omega), if_neg (by omega)]
    · rw [if_neg hk2]
      rcases (by omega : k = c.n - 2 ∨ k = c.n - 1) with e | e
      · rw [if_pos e.symm]
      · rw [if_neg (by omega), if_pos e.symm]
  rw [e]
  rw [forRange_fill (fun i => truncV c.n (gv (c.toChP v)) i) hd (fun i w hi hw _ => by rw [rd_tab hi]; rfl)]
  simp only [ok_bind]
  rw [forRange_closed (fun j => tab c.n fun k => if c.n - 2 ≤ k + j then dV c.n (truncV c.n (gv (c.toChP v))) k
      else truncV c.n (gv (c.toChP v)) k) (Nat.zero_le _)]
  · simp only [ok_bind]
    rw [rd_tab (by omega)]
    simp only [ok_bind]
    rw [wr_tab (f' := dcoef c.n (gv (c.toChP v))) (by omega)]
    · simp only [ok_bind]
      rw [to_po_eq h (by simp) (by simp)]
      simp only [ok_bind]
      rw [forRange_fill (fun i => gv (c.toPoP (tab c.n (dcoef c.n (gv (c.toChP v))))) i / c.jacobian)
        (h.toPoP_length _) (fun i w hi hw hg => by rw [rd_ok (by omega), hg]; rfl)]
      rfl
    · unfold dcoef
      rw [if_pos rfl, if_pos (by omega)]
    · intro j hj hne
      unfold dcoef
      rw [if_neg hne, if_pos (by omega)]
  · apply tab_congr
    intro k hk
    by_cases hk2 : c.n - 2 ≤ k + 0
    · rw [if_pos hk2]; unfold dV truncV; rw [if_neg (by omega), if_neg (by omega)]
    · rw [if_neg hk2]
  · intro j _ hj
    have e1 : usub (c.n - 2) j = c.n - 2 - j := usub_of_le (by omega) (by omega)
    rw [e1, usub_of_le (by omega) (by omega), rd_tab (by omega)]
    simp only [ok_bind]
    rw [rd_tab (by omega)]
    simp only [ok_bind]
    apply wr_tab (by omega)
    · rw [if_pos (by omega), if_pos (by omega), dV, if_pos (by omega)]
      have : c.n - 2 - j - 1 + 1 = c.n - 2 - j := by omega
      rw [this]
      have : c.n - 2 - j - 1 + 2 = c.n - 2 - j + 1 := by omega
      rw [this]
    · intro k hk hne
      by_cases hc : c.n - 2 ≤ k + j
      · rw [if_pos hc, if_pos (by omega)]
      · rw [if_neg hc, if_neg (by omega)]

theorem filter_eq {c : Cheb α} (h : c.Wf) {v : List α} (hv : v.length = c.n) : c.filter v = .ok (c.filterP v) := by
  have h2 := h.two
  unfold filter
  dsimp only
  rw [cassert_true _ _ (by simp [hv])]
  simp only [ok_bind]
  rw [to_ch_eq h hv (by simp)]
  simp only [ok_bind]
  rw [forRange_fill (fun i => gv (c.toChP v) i * gv c.lowPass i) (by simp)
    (fun i w hi hw hg => by rw [rd_ok (by omega), rd_ok (by rw [h.low]; exact hi), hg]; rfl)]
  simp only [ok_bind]
  rw [to_po_eq h (by simp) hv]
  rfl

theorem mkPts_eq (n : Nat) (lo up jac : α) :
    mkPts n lo up jac = .ok (tab n fun i => jac * cos (pi * dbl i / (dbl n - 1)) + ((up + lo) / 2)) :=
  forRange_fill (fun i => jac * cos (pi * dbl i / (dbl n - 1)) + ((up + lo) / 2)) (by simp) (fun _ _ _ _ _ => rfl)

theorem mkLow_eq (n : Nat) : mkLow (α := α) n = .ok (tab n fun i => exp (-40 * pown (dbl i / dbl n) 16)) :=
  forRange_fill (fun i => exp (-40 * pown (dbl i / dbl n) 16)) (by simp) (fun _ _ _ _ _ => rfl)

/-- closed form of the constructor -/
theorem mk'_eq (n : Nat) (lo up : α) (dct : List α → List α) (nd : Bool) :
    mk' n lo up dct true nd = .ok
      { n := n, lower := lo, upper := up, jacobian := (up - lo) / 2,
        pts := tab n fun i => (up - lo) / 2 * cos (pi * dbl i / (dbl n - 1)) + ((up + lo) / 2),
        lowPass := tab n fun i => exp (-40 * pown (dbl i / dbl n) 16), dct := dct, ndebug := nd } := by
  unfold mk'
  dsimp only
  rw [mkPts_eq, mkLow_eq]
  simp only [ok_bind]
  rw [cassert_true _ _ rfl]
  rfl

end Cheb
end SFK
