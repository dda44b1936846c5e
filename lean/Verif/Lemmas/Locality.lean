import Verif.Spec.Locality
import Verif.Lemmas.LinEom
import Mathlib.Tactic.SplitIfs
/-
The reach of the finite differences, of the right-hand side and of a time step.
-/
namespace SFK
open Scalar

/-- Shell `j` is used for the radial derivatives at shell `i` (or nearer). -/
def NearShell (n i j : ℕ) : Prop := (i ≤ j + 3 ∧ j ≤ i + 3) ∨ (i ≤ 2 ∧ j ≤ 7) ∨ (n ≤ i + 3 ∧ n ≤ j + 8)

namespace FD
variable {α : Type} [Scalar α] {fd : FD α} {v w : ℕ → α} {i : ℕ}

theorem derV_near (hn : 8 ≤ fd.n) (hi : i < fd.n) (h : ∀ j, j < fd.n → NearShell fd.n i j → v j = w j) : fd.derV v i = fd.derV w i := by
  unfold derV
  unfold NearShell at h
  split_ifs with h0 h1 h2 h3 h4 h5
  all_goals
    first
    | rw [h 0 (by omega) (by omega), h 1 (by omega) (by omega), h 2 (by omega) (by omega), h 3 (by omega) (by omega), h 4 (by omega) (by omega),
        h 5 (by omega) (by omega), h 6 (by omega) (by omega)]
    | rw [h (fd.n - 1) (by omega) (by omega), h (fd.n - 2) (by omega) (by omega), h (fd.n - 3) (by omega) (by omega), h (fd.n - 4) (by omega) (by omega),
        h (fd.n - 5) (by omega) (by omega), h (fd.n - 6) (by omega) (by omega), h (fd.n - 7) (by omega) (by omega)]
    | rw [h (i + 3) (by omega) (by omega), h (i + 2) (by omega) (by omega), h (i + 1) (by omega) (by omega), h (i - 1) (by omega) (by omega),
        h (i - 2) (by omega) (by omega), h (i - 3) (by omega) (by omega)]

theorem der2V_near (hn : 8 ≤ fd.n) (hi : i < fd.n) (h : ∀ j, j < fd.n → NearShell fd.n i j → v j = w j) : fd.der2V v i = fd.der2V w i := by
  unfold der2V
  unfold NearShell at h
  split_ifs with h0 h1 h2 h3 h4 h5
  all_goals
    first
    | rw [h 0 (by omega) (by omega), h 1 (by omega) (by omega), h 2 (by omega) (by omega), h 3 (by omega) (by omega), h 4 (by omega) (by omega),
        h 5 (by omega) (by omega), h 6 (by omega) (by omega), h 7 (by omega) (by omega)]
    | rw [h (fd.n - 1) (by omega) (by omega), h (fd.n - 2) (by omega) (by omega), h (fd.n - 3) (by omega) (by omega), h (fd.n - 4) (by omega) (by omega),
        h (fd.n - 5) (by omega) (by omega), h (fd.n - 6) (by omega) (by omega), h (fd.n - 7) (by omega) (by omega), h (fd.n - 8) (by omega) (by omega)]
    | rw [h (i + 3) (by omega) (by omega), h (i + 2) (by omega) (by omega), h (i + 1) (by omega) (by omega), h i (by omega) (by omega),
        h (i - 1) (by omega) (by omega), h (i - 2) (by omega) (by omega), h (i - 3) (by omega) (by omega)]

end FD

section
variable {α : Type} [Scalar α] {E : Env α} {P : ParamRec α} {g : Grid α} {e : Eom α} {S S' : ℕ → Prop} {u v u' v' : List α}

theorem SameOn.mono (h : SameOn g.d S u v) (hs : ∀ i, i < g.d.nx → S' i → S i) : SameOn g.d S' u v :=
  fun ix it ip a b c d => h ix it ip a b c (hs ix a d)

/-- an operator acting shell by shell -/
theorem SameOn.shells (hw : g.Wf) (F : List α → List α) (h : SameOn g.d S u v) :
    SameOn g.d S (g.d.ofShells fun ix => F (g.d.shellOf u ix)) (g.d.ofShells fun ix => F (g.d.shellOf v ix)) := by
  intro ix it ip a b c d
  unfold Dims.ofShells
  rw [hw.ok.at3_mk3 ⟨a, b, c⟩, hw.ok.at3_mk3 ⟨a, b, c⟩]
  beta_reduce
  rw [Dims.shellOf_congr fun it ip hi hp => h ix it ip a hi hp d]

/-- an operator acting line by line, with the reach of the finite differences -/
theorem SameOn.lines (hw : g.Wf) {F : List α → List α}
    (hF : ∀ x y : List α, x.length = g.d.nx → y.length = g.d.nx → ∀ i, i < g.d.nx → (∀ j, j < g.d.nx → NearShell g.d.nx i j → gv x j = gv y j) →
      gv (F x) i = gv (F y) i)
    (hs : ∀ i j, i < g.d.nx → j < g.d.nx → S' i → NearShell g.d.nx i j → S j) (h : SameOn g.d S u v) :
    SameOn g.d S' (g.d.ofLines fun it ip => F (g.d.lineOf u it ip)) (g.d.ofLines fun it ip => F (g.d.lineOf v it ip)) := by
  intro ix it ip a b c d
  unfold Dims.ofLines
  rw [hw.ok.at3_mk3 ⟨a, b, c⟩, hw.ok.at3_mk3 ⟨a, b, c⟩]
  refine hF _ _ (by simp) (by simp) ix a fun j hj hn => ?_
  unfold Dims.lineOf
  rw [gv_tab hj, gv_tab hj]
  exact h j it ip hj b c (hs ix j a hj d hn)

theorem SameOn.ax (hw : g.Wf) {k k' : List α} (c : α) (h : SameOn g.d S u v) (hk : SameOn g.d S k k') :
    SameOn g.d S (Eom.ax g.d.total u c k) (Eom.ax g.d.total v c k') := by
  intro ix it ip a b d hs
  have h1 := h ix it ip a b d hs
  have h2 := hk ix it ip a b d hs
  unfold Dims.at3 at *
  have hl := hw.ok.idx3_lt ⟨a, b, d⟩
  rw [Eom.ax_gv hl, Eom.ax_gv hl, h1, h2]

variable (hw : g.Wf) {fd : FD α} (hfd : g.radial = .fd fd)
include hw hfd

theorem near_opr (x y : List α) (i : ℕ) (hi : i < g.d.nx) (h : ∀ j, j < g.d.nx → NearShell g.d.nx i j → gv x j = gv y j) :
    gv (g.oprP x) i = gv (g.oprP y) i := by
  have hr := hw.rad
  rw [hfd] at hr
  have hn : fd.n = g.d.nx := hr.1
  unfold Grid.oprP
  rw [gv_tab hi, gv_tab hi, hfd]
  unfold Radial.derP
  dsimp only
  rw [gv_tab (by omega), gv_tab (by omega), FD.derV_near (by rw [hn]; exact hr.2.1) (by omega) (by rw [hn]; exact h)]

theorem near_op2r (x y : List α) (i : ℕ) (hi : i < g.d.nx) (h : ∀ j, j < g.d.nx → NearShell g.d.nx i j → gv x j = gv y j) :
    gv (g.op2rP x) i = gv (g.op2rP y) i := by
  have hr := hw.rad
  rw [hfd] at hr
  have hn : fd.n = g.d.nx := hr.1
  unfold Grid.op2rP
  rw [gv_tab hi, gv_tab hi, hfd]
  unfold Radial.derP Radial.der2P
  dsimp only
  rw [gv_tab (by omega), gv_tab (by omega), gv_tab (by omega), gv_tab (by omega),
    FD.derV_near (by rw [hn]; exact hr.2.1) (by omega) (by rw [hn]; exact h),
    FD.der2V_near (by rw [hn]; exact hr.2.1) (by omega) (by rw [hn]; exact h)]

theorem SameOn.prP (hs : ∀ i j, i < g.d.nx → j < g.d.nx → S' i → NearShell g.d.nx i j → S j) (h : SameOn g.d S u v) :
    SameOn g.d S' (g.prP u) (g.prP v) :=
  h.lines hw (fun x y _ _ i hi => near_opr hw hfd x y i hi) hs

theorem SameOn.p2rP (hs : ∀ i j, i < g.d.nx → j < g.d.nx → S' i → NearShell g.d.nx i j → S j) (h : SameOn g.d S u v) :
    SameOn g.d S' (g.p2rP u) (g.p2rP v) :=
  h.lines hw (fun x y _ _ i hi => near_op2r hw hfd x y i hi) hs

/-- The reach of the right-hand side. -/
theorem SameOn.rhs (hs : ∀ i j, i < g.d.nx → j < g.d.nx → S' i → NearShell g.d.nx i j → S j) (hf : SameOn g.d S u v) (hp : SameOn g.d S u' v') :
    SameOn g.d S' (e.rhs g u u') (e.rhs g v v') := by
  have hm : ∀ i, i < g.d.nx → S' i → S i := fun i hi h => hs i i hi hi h (Or.inl ⟨by omega, by omega⟩)
  have a1 := hf.prP hw hfd hs
  have a2 := hp.prP hw hfd hs
  have a3 := hf.p2rP hw hfd hs
  have b : SameOn g.d S (g.pphiP u) (g.pphiP v) := hf.shells hw g.sphere.phiP
  have a4 := b.prP hw hfd hs
  have a5 := b.mono hm
  have a6 : SameOn g.d S' (g.psphXP u) (g.psphXP v) := (hf.mono hm).shells hw g.sphere.sphXP
  have a7 : SameOn g.d S' (g.plapP u) (g.plapP v) := (hf.mono hm).shells hw g.sphere.lapP
  have a8 := hf.mono hm
  have a9 := hp.mono hm
  intro ix it ip a b c d
  replace a1 := a1 ix it ip a b c d
  replace a2 := a2 ix it ip a b c d
  replace a3 := a3 ix it ip a b c d
  replace a4 := a4 ix it ip a b c d
  replace a5 := a5 ix it ip a b c d
  replace a6 := a6 ix it ip a b c d
  replace a7 := a7 ix it ip a b c d
  replace a8 := a8 ix it ip a b c d
  replace a9 := a9 ix it ip a b c d
  have hl := hw.ok.idx3_lt ⟨a, b, c⟩
  unfold Dims.at3 at *
  unfold Eom.rhs
  rw [gv_tab hl, gv_tab hl, a1, a2, a3, a4, a5, a6, a7, a8, a9]

/-- The reach of a time step: four times that of the right-hand side. -/
theorem SameOn.step {S : ℕ → ℕ → Prop} (hs : ∀ k < 4, ∀ i j, i < g.d.nx → j < g.d.nx → S (k + 1) i → NearShell g.d.nx i j → S k j)
    (hf : SameOn g.d (S 0) u v) (hp : SameOn g.d (S 0) u' v') :
    SameOn g.d (S 4) (e.stepF g (g.filtP u) (g.filtP u')).1 (e.stepF g (g.filtP v) (g.filtP v')).1 ∧
    SameOn g.d (S 4) (e.stepF g (g.filtP u) (g.filtP u')).2 (e.stepF g (g.filtP v) (g.filtP v')).2 := by
  have hm : ∀ k < 4, ∀ i, i < g.d.nx → S (k + 1) i → S k i := fun k hk i hi h => hs k hk i i hi hi h (Or.inl ⟨by omega, by omega⟩)
  have f0 : SameOn g.d (S 0) (g.filtP u) (g.filtP v) := hf.shells hw g.sphere.filtP
  have p0 : SameOn g.d (S 0) (g.filtP u') (g.filtP v') := hp.shells hw g.sphere.filtP
  generalize g.filtP u = U at *
  generalize g.filtP v = V at *
  generalize g.filtP u' = U' at *
  generalize g.filtP v' = V' at *
  have f1 := f0.mono (hm 0 (by omega))
  have p1 := p0.mono (hm 0 (by omega))
  have f2 := f1.mono (hm 1 (by omega))
  have p2 := p1.mono (hm 1 (by omega))
  have f3 := f2.mono (hm 2 (by omega))
  have p3 := p2.mono (hm 2 (by omega))
  have f4 := f3.mono (hm 3 (by omega))
  have p4 := p3.mono (hm 3 (by omega))
  have r1 : SameOn g.d (S 1) (e.rhs g U U') (e.rhs g V V') := f0.rhs hw hfd (hs 0 (by omega)) p0
  have l2 : SameOn g.d (S 1) (e.L2 g U U').1 (e.L2 g V V').1 := f1.ax hw _ p1
  have l2' : SameOn g.d (S 1) (e.L2 g U U').2 (e.L2 g V V').2 := p1.ax hw _ r1
  have r2 : SameOn g.d (S 2) (e.rhs g (e.L2 g U U').1 (e.L2 g U U').2) (e.rhs g (e.L2 g V V').1 (e.L2 g V V').2) := l2.rhs hw hfd (hs 1 (by omega)) l2'
  have l3 : SameOn g.d (S 2) (e.L3 g U U').1 (e.L3 g V V').1 := f2.ax hw _ (l2'.mono (hm 1 (by omega)))
  have l3' : SameOn g.d (S 2) (e.L3 g U U').2 (e.L3 g V V').2 := p2.ax hw _ r2
  have r3 : SameOn g.d (S 3) (e.rhs g (e.L3 g U U').1 (e.L3 g U U').2) (e.rhs g (e.L3 g V V').1 (e.L3 g V V').2) := l3.rhs hw hfd (hs 2 (by omega)) l3'
  have l4 : SameOn g.d (S 3) (e.L4 g U U').1 (e.L4 g V V').1 := f3.ax hw _ (l3'.mono (hm 2 (by omega)))
  have l4' : SameOn g.d (S 3) (e.L4 g U U').2 (e.L4 g V V').2 := p3.ax hw _ r3
  have r4 : SameOn g.d (S 4) (e.rhs g (e.L4 g U U').1 (e.L4 g U U').2) (e.rhs g (e.L4 g V V').1 (e.L4 g V V').2) := l4.rhs hw hfd (hs 3 (by omega)) l4'
  have m2 := (l2'.mono (hm 1 (by omega))).mono (hm 2 (by omega)) |>.mono (hm 3 (by omega))
  have m3 := (l3'.mono (hm 2 (by omega))).mono (hm 3 (by omega))
  have m4 := l4'.mono (hm 3 (by omega))
  have q1 := ((r1.mono (hm 1 (by omega))).mono (hm 2 (by omega))).mono (hm 3 (by omega))
  have q2 := (r2.mono (hm 2 (by omega))).mono (hm 3 (by omega))
  have q3 := r3.mono (hm 3 (by omega))
  exact ⟨(((f4.ax hw _ p4).ax hw _ m2).ax hw _ m3).ax hw _ m4, (((p4.ax hw _ q1).ax hw _ q2).ax hw _ q3).ax hw _ r4⟩

/-- The reach of `N` steps. -/
theorem SameOn.evo {S : ℕ → ℕ → Prop} {N : ℕ} (hs : ∀ k < 4 * N, ∀ i j, i < g.d.nx → j < g.d.nx → S (k + 1) i → NearShell g.d.nx i j → S k j)
    (hf : SameOn g.d (S 0) u v) (hp : SameOn g.d (S 0) u' v') :
    SameOn g.d (S (4 * N)) (evoP e g u u' N).1 (evoP e g v v' N).1 ∧ SameOn g.d (S (4 * N)) (evoP e g u u' N).2 (evoP e g v v' N).2 := by
  induction N with
  | zero => exact ⟨hf, hp⟩
  | succ N ih =>
    obtain ⟨a, b⟩ := ih fun k hk => hs k (by omega)
    exact SameOn.step (S := fun k => S (4 * N + k)) hw hfd (fun k hk => hs (4 * N + k) (by omega)) a b

end
end SFK
