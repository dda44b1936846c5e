import Verif.Lemmas.Lifetime
/-
C92: histories of constructions, uses and destructions of the classes Cheb, Sphere and Grid.
-/
namespace SFK
open Life

/-- **C92 (exact).**  A history that respects the lifetimes of the objects is free of undefined behaviour *if and only if* no clean-up of the
FFTW library hits another object: the destructor of every Chebyshev transform resets the library, so no object that exists at that moment may be used
or destroyed afterwards, and a Grid built with `USE_CHEB`, whose radial part is destroyed before its angular part, must not be destroyed at all.
The only kind of failure is undefined behaviour.  (`c.shPlans ≠ 0`: SHTns holds at least one plan.) -/
theorem C92_exact (c : Cfg) (hc : c.shPlans ≠ 0) (h : List Op) (H : Legit h) :
    ((∃ s, run c St.init h = .ok s) ↔ NoForeignCleanup c h) ∧ ∀ e, run c St.init h = .error e → e = .ub :=
  ⟨(run_iff hc h H).1, (run_iff hc h H).2.2⟩

/-- **C92 (safe histories), partial.**  Under the rule of `C92_exact` every history runs; after it no plan is left that does not belong to an object
that still exists, so a program that has destroyed everything has released everything.  Missing: the same for *all* lifetime-respecting histories, false by
`C92_grid_destruction_ub` and `C92_two_chebs_ub`. -/
theorem C92_safe_partial (c : Cfg) (h : List Op) (H : Legit h) (nf : NoForeignCleanup c h) :
    ∃ s, run c St.init h = .ok s ∧ (∀ i, s.obj i = none ↔ kindAfter h i = none) ∧
      ((∀ i, kindAfter h i = none) → s.lib.valid = []) := by
  obtain ⟨s, hs, I⟩ := run_ok_of h H nf
  refine ⟨s, hs, I.none_iff, fun hn => ?_⟩
  apply List.eq_nil_iff_forall_not_mem.mpr
  intro p hp
  obtain ⟨i, o, ho, _⟩ := I.owned p hp
  rw [(I.none_iff i).mpr (hn i)] at ho
  cases ho

/-- **C92 (finite differences).**  In a build without `USE_CHEB`, Grids and Spheres may be constructed, used and destroyed in any order that respects
their lifetimes. -/
theorem C92_fd (c : Cfg) (hfd : c.useCheb = false) (h : List Op) (H : Legit h) (hk : ∀ i k, Op.new i k ∈ h → k ≠ .cheb) :
    ∃ s, run c St.init h = .ok s ∧ ((∀ i, kindAfter h i = none) → s.lib.valid = []) := by
  obtain ⟨s, hs, _, hv⟩ := C92_safe_partial c h H (noForeign_of_noCheb fun i k hik => by
    cases k with
    | cheb => exact absurd rfl (hk i _ hik)
    | sphere => simp [hasCheb]
    | grid => simp [hasCheb, hfd])
  exact ⟨s, hs, hv⟩

/-- **C92 (a Grid with Chebyshev points cannot be destroyed).**  In a `USE_CHEB` build every history that destroys a Grid (as every program does that
lets one go out of scope, `main` included) runs into undefined behaviour: SHTns destroys plans after the clean-up. -/
theorem C92_grid_destruction_ub (c : Cfg) (hc : c.shPlans ≠ 0) (hch : c.useCheb = true) (h : List Op) (H : Legit h) (a b : List Op) (i : Nat)
    (e : h = a ++ .del i :: b) (hi : kindAfter a i = some .grid) : run c St.init h = .error .ub := by
  obtain ⟨h1, h2⟩ := C92_exact c hc h H
  cases hr : run c St.init h with
  | error e' => rw [h2 e' hr]
  | ok s =>
    have := h1.mp ⟨s, hr⟩ a i b .grid e hi hch
    exact absurd rfl this.1

/-- **C92 (two Chebyshev transforms).**  Destroying one makes the other unusable, in every build. -/
theorem C92_two_chebs_ub (c : Cfg) (i j : Nat) (hij : i ≠ j) :
    (∃ s, run c St.init [.new i .cheb, .new j .cheb, .use i, .use j, .del i] = .ok s) ∧
      run c St.init [.new i .cheb, .new j .cheb, .use i, .use j, .del i, .use j] = .error .ub ∧
      run c St.init [.new i .cheb, .new j .cheb, .use i, .use j, .del i, .del j] = .error .ub := by
  refine ⟨?_, ?_, ?_⟩ <;>
    simp [run, step, ctor, chebCtor, Fftw.plan, St.init, Fftw.init, hij, hij.symm, useObj, Fftw.execute, Fftw.executeAll, dtor, chebDtor, Fftw.destroy,
      sphereDtor, Fftw.destroyAll, Fftw.cleanup, bind, Except.bind]

/-- what `main` does with its Grid -/
def Life.mainHist : List Op := [.new 0 .grid, .use 0, .use 0, .del 0]

theorem Life.mainHist_legit : Legit Life.mainHist := by
  have key : ∀ a x b, Life.mainHist = a ++ x :: b →
      (a = [] ∧ x = .new 0 .grid) ∨ (a = [.new 0 .grid] ∧ x = .use 0) ∨ (a = [.new 0 .grid, .use 0] ∧ x = .use 0) ∨
        (a = [.new 0 .grid, .use 0, .use 0] ∧ x = .del 0) := by
    intro a x b e
    unfold Life.mainHist at e
    match a, e with
    | [], e => simp at e; simp [e.1]
    | [_], e => simp at e; simp [e]
    | [_, _], e => simp at e; obtain ⟨rfl, rfl, rfl, _⟩ := e; simp
    | [_, _, _], e => simp at e; obtain ⟨rfl, rfl, rfl, rfl, _⟩ := e; simp
    | _ :: _ :: _ :: _ :: a, e => simp at e
  refine ⟨?_, ?_, ?_⟩
  · intro a i k b e
    rcases key a _ b e with ⟨rfl, h⟩ | ⟨rfl, h⟩ | ⟨rfl, h⟩ | ⟨rfl, h⟩ <;> first | cases h | skip
    rfl
  · intro a i b e
    rcases key a _ b e with ⟨rfl, h⟩ | ⟨rfl, h⟩ | ⟨rfl, h⟩ | ⟨rfl, h⟩ <;> first | cases h | skip
    all_goals simp [kindAfter]
  · intro a i b e
    rcases key a _ b e with ⟨rfl, h⟩ | ⟨rfl, h⟩ | ⟨rfl, h⟩ | ⟨rfl, h⟩ <;> first | cases h | skip
    simp [kindAfter]

/-- Non-vacuity: `main`'s history with either radial method. -/
example : (∃ s, run ⟨false, 2⟩ St.init mainHist = .ok s ∧ ((∀ i, kindAfter mainHist i = none) → s.lib.valid = [])) ∧ (∀ i, kindAfter mainHist i = none) ∧
    run ⟨true, 2⟩ St.init mainHist = .error .ub :=
  ⟨C92_fd ⟨false, 2⟩ rfl mainHist mainHist_legit (by simp [mainHist]), (fun i => by simp only [kindAfter, mainHist, List.foldl]; split_ifs <;> rfl),
    C92_grid_destruction_ub ⟨true, 2⟩ (by decide) rfl mainHist mainHist_legit [.new 0 .grid, .use 0, .use 0] [] 0 rfl rfl⟩

end SFK
