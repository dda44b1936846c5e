import Verif.Lemmas.Base
import Verif.Model.FD

namespace SFK
open Scalar
variable {α : Type} [Scalar α]

theorem rd7_ok {v : List α} {i0 i1 i2 i3 i4 i5 i6 : Nat} {f : α → α → α → α → α → α → α → α}
    (h0 : i0 < v.length) (h1 : i1 < v.length) (h2 : i2 < v.length) (h3 : i3 < v.length) (h4 : i4 < v.length)
    (h5 : i5 < v.length) (h6 : i6 < v.length) :
    rd7 v i0 i1 i2 i3 i4 i5 i6 f =
      .ok (f (gv v i0) (gv v i1) (gv v i2) (gv v i3) (gv v i4) (gv v i5) (gv v i6)) := by
  simp [rd7, rd_ok, *]

theorem rd8_ok {v : List α} {i0 i1 i2 i3 i4 i5 i6 i7 : Nat} {f : α → α → α → α → α → α → α → α → α}
    (h0 : i0 < v.length) (h1 : i1 < v.length) (h2 : i2 < v.length) (h3 : i3 < v.length) (h4 : i4 < v.length)
    (h5 : i5 < v.length) (h6 : i6 < v.length) (h7 : i7 < v.length) :
    rd8 v i0 i1 i2 i3 i4 i5 i6 i7 f =
      .ok (f (gv v i0) (gv v i1) (gv v i2) (gv v i3) (gv v i4) (gv v i5) (gv v i6) (gv v i7)) := by
  simp [rd8, rd_ok, *]

namespace FD

/-- value of row `i` of `der` -/
def derV (fd : FD α) (v : Nat → α) (i : Nat) : α :=
  if i = 0 then derE0 (v 0) (v 1) (v 2) (v 3) (v 4) (v 5) (v 6) / fd.dx
  else if i = 1 then derE1 (v 0) (v 1) (v 2) (v 3) (v 4) (v 5) (v 6) / fd.dx
  else if i = 2 then derE2 (v 0) (v 1) (v 2) (v 3) (v 4) (v 5) (v 6) / fd.dx
  else if i = fd.n - 1 then -(derE0 (v (fd.n-1)) (v (fd.n-2)) (v (fd.n-3)) (v (fd.n-4)) (v (fd.n-5)) (v (fd.n-6)) (v (fd.n-7))) / fd.dx
  else if i = fd.n - 2 then -(derE1 (v (fd.n-1)) (v (fd.n-2)) (v (fd.n-3)) (v (fd.n-4)) (v (fd.n-5)) (v (fd.n-6)) (v (fd.n-7))) / fd.dx
  else if i = fd.n - 3 then -(derE2 (v (fd.n-1)) (v (fd.n-2)) (v (fd.n-3)) (v (fd.n-4)) (v (fd.n-5)) (v (fd.n-6)) (v (fd.n-7))) / fd.dx
  else derI (v (i+3)) (v (i+2)) (v (i+1)) (v (i-1)) (v (i-2)) (v (i-3)) / fd.dx

/-- value of row `i` of `der2` -/
def der2V (fd : FD α) (v : Nat → α) (i : Nat) : α :=
  if i = 0 then der2E0 (v 0) (v 1) (v 2) (v 3) (v 4) (v 5) (v 6) (v 7) / Scalar.pown fd.dx 2
  else if i = 1 then der2E1 (v 0) (v 1) (v 2) (v 3) (v 4) (v 5) (v 6) (v 7) / Scalar.pown fd.dx 2
  else if i = 2 then der2E2 (v 0) (v 1) (v 2) (v 3) (v 4) (v 5) (v 6) (v 7) / Scalar.pown fd.dx 2
  else if i = fd.n - 1 then der2E0 (v (fd.n-1)) (v (fd.n-2)) (v (fd.n-3)) (v (fd.n-4)) (v (fd.n-5)) (v (fd.n-6)) (v (fd.n-7)) (v (fd.n-8)) / Scalar.pown fd.dx 2
  else if i = fd.n - 2 then der2E1 (v (fd.n-1)) (v (fd.n-2)) (v (fd.n-3)) (v (fd.n-4)) (v (fd.n-5)) (v (fd.n-6)) (v (fd.n-7)) (v (fd.n-8)) / Scalar.pown fd.dx 2
  else if i = fd.n - 3 then der2E2 (v (fd.n-1)) (v (fd.n-2)) (v (fd.n-3)) (v (fd.n-4)) (v (fd.n-5)) (v (fd.n-6)) (v (fd.n-7)) (v (fd.n-8)) / Scalar.pown fd.dx 2
  else der2I (v (i+3)) (v (i+2)) (v (i+1)) (v i) (v (i-1)) (v (i-2)) (v (i-3)) / Scalar.pown fd.dx 2

/-- value of entry `i` after `filter` -/
def filterV (n : Nat) (v : Nat → α) (i : Nat) : α :=
  if 4 ≤ i ∧ i < n - 4 then koE (v (i-4)) (v (i-3)) (v (i-2)) (v (i-1)) (v i) (v (i+1)) (v (i+2)) (v (i+3)) (v (i+4))
  else v i

theorem usub2 {n a b : Nat} (hn : n < W) (h : a + b ≤ n) : usub (usub n a) b = n - (a + b) := by
  unfold usub W at *; omega

theorem der_eq (fd : FD α) (hn : 7 ≤ fd.n) (hW : fd.n < W) {v dv : List α} (hv : v.length = fd.n)
    (hd : dv.length = fd.n) : fd.der v dv = .ok (tab fd.n (derV fd (gv v))) := by
  obtain ⟨n, lo, up, dx, nd⟩ := fd
  simp only at hn hW hv hd
  unfold der
  rw [cassert_true _ _ (by simp [hv]), cassert_true _ _ (by simp [hd])]
  simp only [ok_bind]
  rw [usub2 hW (by omega), usub2 hW (by omega), usub2 hW (by omega), usub2 hW (by omega), usub2 hW (by omega),
    usub2 hW (by omega), usub2 hW (by omega), usub_of_le hW (by omega : 1 ≤ n), usub_of_le hW (by omega : 2 ≤ n),
    usub_of_le hW (by omega : 3 ≤ n)]
  rw [rd7_ok (by omega) (by omega) (by omega) (by omega) (by omega) (by omega) (by omega)]
  rw [rd7_ok (by omega) (by omega) (by omega) (by omega) (by omega) (by omega) (by omega)]
  rw [rd7_ok (by omega) (by omega) (by omega) (by omega) (by omega) (by omega) (by omega)]
  rw [rd7_ok (by omega) (by omega) (by omega) (by omega) (by omega) (by omega) (by omega)]
  rw [rd7_ok (by omega) (by omega) (by omega) (by omega) (by omega) (by omega) (by omega)]
  rw [rd7_ok (by omega) (by omega) (by omega) (by omega) (by omega) (by omega) (by omega)]
  simp only [ok_bind]
  rw [wr_ok (by omega)]; simp only [ok_bind]
  rw [wr_ok (by simp; omega)]; simp only [ok_bind]
  rw [wr_ok (by simp; omega)]; simp only [ok_bind]
  rw [wr_ok (by simp; omega)]; simp only [ok_bind]
  rw [wr_ok (by simp; omega)]; simp only [ok_bind]
  rw [wr_ok (by simp; omega)]; simp only [ok_bind]
  rw [forRange_wr (n := n) (fun i => i)
    (fun i => derI (gv v (i+3)) (gv v (i+2)) (gv v (i+1)) (gv v (i-1)) (gv v (i-2)) (gv v (i-3)) / dx) (fun i => i)
    (by simp [hd]) (by omega) (fun i _ hi => ⟨by omega, rfl⟩)
    (fun i w _ hi hw _ => by
      rw [rd_ok (by omega), rd_ok (by omega), rd_ok (by omega), rd_ok (by omega), rd_ok (by omega), rd_ok (by omega)]
      rfl)]
  congr 1
  apply tab_congr
  intro j hj
  unfold derV
  by_cases hI : 3 ≤ j ∧ j < n - 3
  · rw [if_pos (by omega)]
    rw [if_neg (by omega), if_neg (by omega), if_neg (by omega), if_neg (by simp only; omega), if_neg (by simp only; omega),
      if_neg (by simp only; omega)]
  · rw [if_neg (by omega)]
    simp only
    rw [gv_set (by simp; omega), gv_set (by simp; omega), gv_set (by simp; omega), gv_set (by simp; omega),
      gv_set (by simp; omega), gv_set (by omega)]
    rcases (by omega : j = 0 ∨ j = 1 ∨ j = 2 ∨ (2 < j ∧ j = n - 1) ∨ (2 < j ∧ j = n - 2) ∨ (2 < j ∧ j = n - 3))
      with h | h | h | h | h | h
    · subst h; rw [if_neg (by omega), if_neg (by omega), if_neg (by omega)]; rfl
    · subst h; rw [if_neg (by omega), if_neg (by omega), if_neg (by omega)]; rfl
    · subst h; rw [if_neg (by omega), if_neg (by omega), if_neg (by omega)]; rfl
    · rw [if_neg (by omega), if_neg (by omega), if_pos (by omega), if_neg (by omega), if_neg (by omega), if_neg (by omega),
        if_pos (by omega)]
    · rw [if_neg (by omega), if_pos (by omega), if_neg (by omega), if_neg (by omega), if_neg (by omega), if_neg (by omega),
        if_pos (by omega)]
    · rw [if_pos (by omega), if_neg (by omega), if_neg (by omega), if_neg (by omega), if_neg (by omega), if_neg (by omega),
        if_pos (by omega)]

theorem der2_eq (fd : FD α) (hn : 8 ≤ fd.n) (hW : fd.n < W) {v dv : List α} (hv : v.length = fd.n)
    (hd : dv.length = fd.n) : fd.der2 v dv = .ok (tab fd.n (der2V fd (gv v))) := by
  obtain ⟨n, lo, up, dx, nd⟩ := fd
  simp only at hn hW hv hd
  unfold der2
  rw [cassert_true _ _ (by simp [hv]), cassert_true _ _ (by simp [hd])]
  simp only [ok_bind]
  rw [usub2 hW (by omega), usub2 hW (by omega), usub2 hW (by omega), usub2 hW (by omega), usub2 hW (by omega),
    usub2 hW (by omega), usub2 hW (by omega), usub2 hW (by omega), usub_of_le hW (by omega : 1 ≤ n),
    usub_of_le hW (by omega : 3 ≤ n)]
  rw [rd8_ok (by omega) (by omega) (by omega) (by omega) (by omega) (by omega) (by omega) (by omega)]
  rw [rd8_ok (by omega) (by omega) (by omega) (by omega) (by omega) (by omega) (by omega) (by omega)]
  rw [rd8_ok (by omega) (by omega) (by omega) (by omega) (by omega) (by omega) (by omega) (by omega)]
  rw [rd8_ok (by omega) (by omega) (by omega) (by omega) (by omega) (by omega) (by omega) (by omega)]
  rw [rd8_ok (by omega) (by omega) (by omega) (by omega) (by omega) (by omega) (by omega) (by omega)]
  rw [rd8_ok (by omega) (by omega) (by omega) (by omega) (by omega) (by omega) (by omega) (by omega)]
  simp only [ok_bind]
  rw [wr_ok (by omega)]; simp only [ok_bind]
  rw [wr_ok (by simp; omega)]; simp only [ok_bind]
  rw [wr_ok (by simp; omega)]; simp only [ok_bind]
  rw [wr_ok (by simp; omega)]; simp only [ok_bind]
  rw [wr_ok (by simp; omega)]; simp only [ok_bind]
  rw [wr_ok (by simp; omega)]; simp only [ok_bind]
  rw [forRange_wr (n := n) (fun i => i)
    (fun i => der2I (gv v (i+3)) (gv v (i+2)) (gv v (i+1)) (gv v i) (gv v (i-1)) (gv v (i-2)) (gv v (i-3)) / Scalar.pown dx 2)
    (fun i => i)
    (by simp [hd]) (by omega) (fun i _ hi => ⟨by omega, rfl⟩)
    (fun i w _ hi hw _ => by
      rw [rd7_ok (by omega) (by omega) (by omega) (by omega) (by omega) (by omega) (by omega)]
      rfl)]
  congr 1
  apply tab_congr
  intro j hj
  unfold der2V
  by_cases hI : 3 ≤ j ∧ j < n - 3
  · rw [if_pos (by omega)]
    rw [if_neg (by omega), if_neg (by omega), if_neg (by omega), if_neg (by simp only; omega), if_neg (by simp only; omega),
      if_neg (by simp only; omega)]
  · rw [if_neg (by omega)]
    simp only
    rw [gv_set (by simp; omega), gv_set (by simp; omega), gv_set (by simp; omega), gv_set (by simp; omega),
      gv_set (by simp; omega), gv_set (by omega)]
    rcases (by omega : j = 0 ∨ j = 1 ∨ j = 2 ∨ (2 < j ∧ j = n - 1) ∨ (2 < j ∧ j = n - 2) ∨ (2 < j ∧ j = n - 3))
      with h | h | h | h | h | h
    · subst h; rw [if_neg (by omega), if_neg (by omega), if_neg (by omega)]; rfl
    · subst h; rw [if_neg (by omega), if_neg (by omega), if_neg (by omega)]; rfl
    · subst h; rw [if_neg (by omega), if_neg (by omega), if_neg (by omega)]; rfl
    · rw [if_neg (by omega), if_neg (by omega), if_pos (by omega), if_neg (by omega), if_neg (by omega), if_neg (by omega),
        if_pos (by omega)]
    · rw [if_neg (by omega), if_pos (by omega), if_neg (by omega), if_neg (by omega), if_neg (by omega), if_neg (by omega),
        if_pos (by omega)]
    · rw [if_pos (by omega), if_neg (by omega), if_neg (by omega), if_neg (by omega), if_neg (by omega), if_neg (by omega),
        if_pos (by omega)]

theorem filter_eq (fd : FD α) (hn : 4 ≤ fd.n) (hW : fd.n < W) {v : List α} (hv : v.length = fd.n) :
    fd.filter v = .ok (tab fd.n (filterV fd.n (gv v))) := by
  unfold filter
  rw [cassert_true _ _ (by simp [hv]), usub_of_le hW hn]
  simp only [ok_bind]
  rcases Nat.lt_or_ge fd.n 8 with hlt | hge
  · rw [forRange_empty (by omega), ok_bind, forRange_empty (by omega)]
    congr 1
    apply eq_tab hv
    intro i hi
    unfold filterV
    rw [if_neg (by omega)]
  · rw [forRange_wr (n := fd.n) (fun i => i)
      (fun i => koE (gv v (i-4)) (gv v (i-3)) (gv v (i-2)) (gv v (i-1)) (gv v i) (gv v (i+1)) (gv v (i+2)) (gv v (i+3)) (gv v (i+4)))
      (fun i => i) (by simp) (by omega) (fun i _ hi => ⟨by omega, rfl⟩)
      (fun i w _ hi hw _ => by
        rw [rd_ok (by omega), rd_ok (by omega), ok_bind, ok_bind,
          rd7_ok (by omega) (by omega) (by omega) (by omega) (by omega) (by omega) (by omega)]
        rfl), ok_bind]
    rw [forRange_wr (n := fd.n) (fun i => i) (fun i => filterV fd.n (gv v) i)
      (fun i => i) hv (by omega) (fun i _ hi => ⟨by omega, rfl⟩)
      (fun i w h4 hi hw _ => by
        rw [rd_tab (by omega)]
        unfold filterV
        rw [if_pos (by omega), if_pos (by omega)]
        rfl)]
    congr 1
    apply tab_congr
    intro j hj
    by_cases hc : 4 ≤ j ∧ j < fd.n - 4
    · rw [if_pos (by omega)]
    · rw [if_neg (by omega)]
      unfold filterV
      rw [if_neg hc]

end FD
end SFK
