import Verif.Model.Tests
import Verif.Props.SphereMath
/-
The loops of the unit tests (Model/Tests.lean) in closed form.
-/
namespace SFK
open Scalar CR

namespace Tests
variable {s : Sphere CR} {contig : Bool} {x : ℕ → ℝ} {A : ℕ → ℕ → ℕ → ℝ}

theorem indx_eq {α : Type} [Scalar α] {s : Sphere α} (hW : s.nlat * s.nphi < W) {it ip : ℕ} (h1 : it < s.nlat) (h2 : ip < s.nphi) :
    indx contig s it ip = spos contig s.nlat s.nphi it ip := by
  have := spos_lt (contig := contig) h1 h2
  unfold indx spos at *
  cases contig
  · simp only [Bool.false_eq_true, if_false] at *
    unfold uadd umul
    rw [Nat.mod_add_mod, Nat.mod_eq_of_lt (by omega)]
  · simp only [if_true] at *
    unfold uadd umul
    rw [Nat.mod_add_mod, Nat.mod_eq_of_lt (by omega)]

theorem theta_eq (h : s.Wf) (hm : s.sht.Math contig s.nlat s.nphi x A) {it : ℕ} (h1 : it < s.nlat) :
    s.theta it = .ok (fin (Real.arccos (x it))) := by
  have hin := hm.inside it h1
  unfold Sphere.theta
  rw [rd_ok (by rw [h.api.ct_len]; exact h1), ok_bind, hm.ct it h1, fin_acos _ hin.1.le hin.2.le]

theorem phi_eq (h : s.Wf) (hp : 0 < s.nphi) (ip : ℕ) : s.phi ip = fin (phiN s.nphi ip) := by
  unfold Sphere.phi phiN
  have : ((s.nphi * 1 : ℕ) : ℝ) ≠ 0 := by rw [Nat.mul_one]; exact_mod_cast hp.ne'
  rw [h.api.nphi_eq, h.api.mres_eq, fin_dbl, fin_dbl, fin_ofNat', fin_pi, fin_mul, fin_mul, fin_div _ _ this]
  congr 1
  push_cast
  ring

/-- filling a vector point by point -/
theorem fill_eq {β : Type} [Inhabited β] (h : s.Wf) (hm : s.sht.Math contig s.nlat s.nphi x A) (hW : s.nlat * s.nphi < W) (F : CR → CR → β) {v : List β}
    (hv : v.length = s.nSph) : ∃ w, fill contig s F v = .ok w ∧ w.length = s.nlat * s.nphi ∧
      ∀ it ip, it < s.nlat → ip < s.nphi → gv w (spos contig s.nlat s.nphi it ip) = F (fin (Real.arccos (x it))) (fin (phiN s.nphi ip)) := by
  have hp : 0 < s.nphi := by have := hm.nphi_gt; omega
  rw [h.nSph'] at hv
  by_cases hl0 : s.nlat = 0
  · refine ⟨v, ?_, hv, fun it ip h1 => by omega⟩
    unfold fill
    rw [hl0]
    rw [forRange_closed (fun _ => v) (Nat.zero_le _) rfl]
    intro k _ _
    rfl
  have hl : 0 < s.nlat := by omega
  unfold fill
  have key := forRange2_wr (A := s.nphi) (B := s.nlat) (n := s.nlat * s.nphi) (v := v)
    (b := fun ip it v => do
      let th ← s.theta it
      wr v (indx contig s it ip) (F th (s.phi ip)))
    (fun ip it => spos contig s.nlat s.nphi it ip) (fun ip it => F (fin (Real.arccos (x it))) (fin (phiN s.nphi ip)))
    (fun k => if contig then k / s.nlat else k % s.nphi) (fun k => if contig then k % s.nlat else k / s.nphi) hv
    (fun ip it h1 h2 => by
      refine ⟨spos_lt h2 h1, ?_, ?_⟩ <;> unfold spos <;> cases contig <;>
        simp only [Bool.false_eq_true, if_false, if_true]
      · rw [Nat.mul_add_mod, Nat.mod_eq_of_lt h1]
      · rw [Nat.mul_add_div hl, Nat.div_eq_of_lt h2, Nat.add_zero]
      · rw [Nat.mul_add_div hp, Nat.div_eq_of_lt h1, Nat.add_zero]
      · rw [Nat.mul_add_mod, Nat.mod_eq_of_lt h2])
    (fun ip it w h1 h2 h3 _ => by
      beta_reduce
      rw [theta_eq h hm h2, ok_bind, indx_eq hW h2 h1, phi_eq h hp])
  refine ⟨_, key, by simp, fun it ip h1 h2 => ?_⟩
  rw [gv_tab (spos_lt h1 h2)]
  have e1 : (if contig then (spos contig s.nlat s.nphi it ip) / s.nlat else (spos contig s.nlat s.nphi it ip) % s.nphi) = ip := by
    unfold spos
    cases contig <;> simp only [Bool.false_eq_true, if_false, if_true]
    · rw [Nat.mul_add_mod, Nat.mod_eq_of_lt h2]
    · rw [Nat.mul_add_div hl, Nat.div_eq_of_lt h1, Nat.add_zero]
  have e2 : (if contig then (spos contig s.nlat s.nphi it ip) % s.nlat else (spos contig s.nlat s.nphi it ip) / s.nphi) = it := by
    unfold spos
    cases contig <;> simp only [Bool.false_eq_true, if_false, if_true]
    · rw [Nat.mul_add_div hp, Nat.div_eq_of_lt h2, Nat.add_zero]
    · rw [Nat.mul_add_mod, Nat.mod_eq_of_lt h1]
  beta_reduce
  rw [e1, e2, if_pos ⟨h2, h1, rfl⟩]

/-- one verdict per iteration -/
theorem verdict_loop {n : ℕ} {P : ℕ → Bool} {b : ℕ → Bool → Exec Bool} (hb : ∀ i ok, i < n → b i ok = .ok (ok && P i)) (ok : Bool) :
    ∃ r, forRange 0 n ok b = .ok r ∧ (r = true ↔ ok = true ∧ ∀ i, i < n → P i = true) := by
  induction n with
  | zero => exact ⟨ok, rfl, by simp⟩
  | succ n ih =>
    obtain ⟨r, h1, h2⟩ := ih (fun i ok hi => hb i ok (by omega))
    refine ⟨r && P n, ?_, ?_⟩
    · rw [forRange_closed (fun k => ok && (List.range k).all P) (Nat.zero_le _) (by simp)]
      · rw [forRange_closed (fun k => ok && (List.range k).all P) (Nat.zero_le _) (by simp)] at h1
        · rw [← Except.ok.inj h1]
          simp [List.range_succ, Bool.and_assoc]
        · intro k _ hk
          rw [hb _ _ (by omega)]
          simp [List.range_succ, Bool.and_assoc]
      · intro k _ hk
        rw [hb _ _ (by omega)]
        simp [List.range_succ, Bool.and_assoc]
    · rw [Bool.and_eq_true, h2]
      constructor
      · rintro ⟨⟨a, b⟩, c⟩
        refine ⟨a, fun i hi => ?_⟩
        by_cases e : i = n
        · rw [e]; exact c
        · exact b i (by omega)
      · rintro ⟨a, b⟩
        exact ⟨⟨a, fun i hi => b i (by omega)⟩, b n (by omega)⟩

/-- the verdict of a nest of expectations: all of them hold -/
theorem expectAll_eq {α : Type} [Scalar α] {s : Sphere α} {p : ℕ → ℕ → Exec Bool} {P : ℕ → ℕ → Bool}
    (hp : ∀ it ip, it < s.nlat → ip < s.nphi → p it ip = .ok (P it ip)) (ok : Bool) :
    ∃ r, expectAll s p ok = .ok r ∧ (r = true ↔ ok = true ∧ ∀ it ip, it < s.nlat → ip < s.nphi → P it ip = true) := by
  unfold expectAll
  obtain ⟨r, h1, h2⟩ := verdict_loop (n := s.nphi) (P := fun ip => decide (∀ it, it < s.nlat → P it ip = true))
    (b := fun ip ok => forRange 0 s.nlat ok fun it ok => do
      let b ← p it ip
      .ok (ok && b)) (fun ip ok hip => by
        obtain ⟨r, h1, h2⟩ := verdict_loop (n := s.nlat) (P := fun it => P it ip)
          (b := fun it ok => do
            let b ← p it ip
            .ok (ok && b)) (fun it ok hit => by rw [hp it ip hit hip, ok_bind]) ok
        beta_reduce
        rw [h1]
        congr 1
        rw [Bool.eq_iff_iff, h2, Bool.and_eq_true, decide_eq_true_eq]) ok
  refine ⟨r, h1, ?_⟩
  rw [h2]
  simp only [decide_eq_true_eq]
  constructor
  · rintro ⟨a, b⟩
    exact ⟨a, fun it ip h3 h4 => b ip h4 it h3⟩
  · rintro ⟨a, b⟩
    exact ⟨a, fun ip h4 it h3 => b it ip h3 h4⟩

end Tests
end SFK
