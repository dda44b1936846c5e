import Verif.Spec.LaunchRun
import Verif.Lemmas.Base
/-
Where the solver writes: every file it touches lies directly in the directory it was given.
-/
namespace SFK
open Scalar

theorem exec_bind_ok {σ τ : Type} {x : Exec σ} {f : σ → Exec τ} {y : τ} (h : (x >>= f) = .ok y) : ∃ a, x = .ok a ∧ f a = .ok y := by
  cases x with
  | error e => cases h
  | ok a => exact ⟨a, rfl, h⟩

section
variable {α : Type} [Scalar α]

theorem levelLoop_name {c : Nat} {st : Option (α → α → α)} {ac : Option (α → α → α → α)} {f f' : Field α}
    (h : Eom.levelLoop c st ac f = .ok f') : f'.name = f.name := by
  unfold Eom.levelLoop at h
  obtain ⟨⟨l, np1⟩, -, h⟩ := exec_bind_ok h
  cases h
  rfl

theorem set_level_name {e : Eom α} {lv : Int} {f p : Field α} {r : Field α × Field α} (h : e.set_level lv f p = .ok r) :
    r.1.name = f.name := by
  have both : ∀ (st : Option (α → α → α)) (ac : Option (α → α → α → α)),
      ((Eom.levelLoop e.n st ac f) >>= fun f => (Eom.levelLoop e.n st ac p) >>= fun p => Except.ok (ε := Err) (f, p)) = .ok r →
      r.1.name = f.name := by
    intro st ac h
    obtain ⟨f', hf, h⟩ := exec_bind_ok h
    obtain ⟨p', hp, h⟩ := exec_bind_ok h
    cases h
    exact levelLoop_name hf
  unfold Eom.set_level at h
  dsimp only at h
  split_ifs at h
  · exact both _ _ h
  · exact both _ _ h
  · exact both _ _ h
  · exact both _ _ h
  · exact both _ _ h
  · cases h; rfl

theorem time_step_name {e : Eom α} {g : Grid α} {J : Junk (Cx α)} {f p : Field α} {r : Eom α × Field α × Field α}
    (h : e.time_step g J f p = .ok r) : r.2.1.name = f.name := by
  unfold Eom.time_step at h
  obtain ⟨_, -, h⟩ := exec_bind_ok h
  obtain ⟨_, -, h⟩ := exec_bind_ok h
  obtain ⟨fn, -, h⟩ := exec_bind_ok h
  obtain ⟨pn, -, h⟩ := exec_bind_ok h
  obtain ⟨⟨f1, p1⟩, h1, h⟩ := exec_bind_ok h
  obtain ⟨⟨e1, k1, q1⟩, -, h⟩ := exec_bind_ok h
  obtain ⟨⟨f2, p2⟩, h2, h⟩ := exec_bind_ok h
  obtain ⟨⟨e2, k2, q2⟩, -, h⟩ := exec_bind_ok h
  obtain ⟨⟨f3, p3⟩, h3, h⟩ := exec_bind_ok h
  obtain ⟨⟨e3, k3, q3⟩, -, h⟩ := exec_bind_ok h
  obtain ⟨⟨f4, p4⟩, h4, h⟩ := exec_bind_ok h
  obtain ⟨⟨e4, k4, q4⟩, -, h⟩ := exec_bind_ok h
  obtain ⟨⟨f5, p5⟩, h5, h⟩ := exec_bind_ok h
  cases h
  have a1 := set_level_name h1
  have a2 := set_level_name h2
  have a3 := set_level_name h3
  have a4 := set_level_name h4
  have a5 := set_level_name h5
  dsimp only at a1 a2 a3 a4 a5 ⊢
  rw [a5, a4, a3, a2, a1]

theorem shift_name {f f' : Field α} (h : f.shift = .ok f') : f'.name = f.name := by
  unfold Field.shift at h
  obtain ⟨n, -, h⟩ := exec_bind_ok h
  cases h
  rfl

/-- the path of a csv file directly in `dir` -/
def CsvIn (dir p : List Char) : Prop := ∃ r, p = dir ++ '/' :: r ∧ '/' ∉ r ∧ ".csv".toList <:+ r

/-- an event about a csv file directly in `dir` -/
def EvIn (dir : List Char) : Event α → Prop
  | .create p => CsvIn dir p
  | .append p _ => CsvIn dir p
  | .diag _ _ _ => True

/-- All events are about files directly in `dir`; results satisfy `Q`. -/
structure Prog.Loc {σ : Type} (dir : List Char) (Q : σ → Prop) (p : Prog α σ) : Prop where
  events : ∀ e ∈ p.events, EvIn dir e
  result : ∀ x, p.result = .ok x → Q x

namespace Prog.Loc
variable {σ τ : Type} {dir : List Char} {Q : σ → Prop} {R : τ → Prop}

theorem bind {p : Prog α σ} {f : σ → Prog α τ} (hp : p.Loc dir Q) (hf : ∀ x, Q x → (f x).Loc dir R) : (p >>= f).Loc dir R := by
  show (Prog.bind p f).Loc dir R
  unfold Prog.bind
  cases h : p.result with
  | ok x =>
    have hx := hf x (hp.result x h)
    refine ⟨fun e he => ?_, fun y hy => hx.result y hy⟩
    rcases List.mem_append.mp he with he | he
    · exact hp.events e he
    · exact hx.events e he
  | error x =>
    refine ⟨hp.events, fun y hy => ?_⟩
    cases hy

theorem pure {x : σ} (h : Q x) : (Pure.pure x : Prog α σ).Loc dir Q := ⟨fun e he => (by cases he), fun y hy => by cases hy; exact h⟩

theorem lift {x : Exec σ} (h : ∀ y, x = .ok y → Q y) : (Prog.lift x : Prog α σ).Loc dir Q := ⟨fun e he => (by cases he), h⟩

theorem emit {e : Event α} (h : EvIn dir e) : (Prog.emit e : Prog α Unit).Loc dir (fun _ => True) :=
  ⟨fun e' he => by rw [List.mem_singleton.mp he]; exact h, fun _ _ => trivial⟩

theorem forN {b : Nat → σ → Prog α σ} (hb : ∀ i s, Q s → (b i s).Loc dir Q) :
    ∀ (c i : Nat) (s : σ), Q s → (Prog.forN c i s b).Loc dir Q := by
  intro c
  induction c with
  | zero => intro i s hs; exact ⟨fun e he => (by cases he), fun y hy => by cases hy; exact hs⟩
  | succ c ih => intro i s hs; exact bind (hb i s hs) fun s' hs' => ih (i + 1) s' hs'

theorem forRange {b : Nat → σ → Prog α σ} {lo hi : Nat} {s : σ} (hs : Q s) (hb : ∀ i s, Q s → (b i s).Loc dir Q) :
    (Prog.forRange lo hi s b).Loc dir Q := forN hb _ _ _ hs

theorem weaken {Q' : σ → Prop} {p : Prog α σ} (hp : p.Loc dir Q) (h : ∀ x, Q x → Q' x) : p.Loc dir Q' :=
  ⟨hp.events, fun x hx => h x (hp.result x hx)⟩

end Prog.Loc

theorem toStr_slash (n : Int) : '/' ∉ Text.toStr n := by
  have hd : ∀ m : ℕ, '/' ∉ Nat.toDigits 10 m := by
    intro m h
    have := Nat.isDigit_of_mem_toDigits (by decide) (by decide) h
    exact absurd this (by decide)
  unfold Text.toStr
  split
  · intro h
    rcases List.mem_cons.mp h with h | h
    · exact absurd h (by decide)
    · exact hd _ h
  · exact hd _

theorem rows_loc {io : IOEnv α} {dir file : List Char} (h : CsvIn dir file) (cs : List (P2 α)) (pw : List α) :
    (Csv.rows io file cs pw).Loc dir (fun _ => True) := by
  unfold Csv.rows
  refine Prog.Loc.forRange trivial fun i _ _ => ?_
  refine Prog.Loc.bind (Prog.Loc.lift fun _ _ => trivial) fun c _ => ?_
  refine Prog.Loc.bind (Prog.Loc.lift fun _ _ => trivial) fun p _ => ?_
  exact Prog.Loc.emit h

theorem write_R_psl_loc {io : IOEnv α} {g : Grid α} {J : Junk (Cx α)} {dir nm : List Char} (hn : '/' ∉ nm) (sc : Bool) (itm : Int)
    (v : List α) : (Csv.write_R_psl io g J (dir ++ '/' :: nm) sc itm v).Loc dir (fun _ => True) := by
  have hin : CsvIn dir (dir ++ '/' :: nm ++ "_RPsl_".toList ++ Text.toStr itm ++ ".csv".toList) := by
    refine ⟨nm ++ "_RPsl_".toList ++ Text.toStr itm ++ ".csv".toList, by simp only [List.append_assoc, List.cons_append], ?_,
      List.suffix_append _ _⟩
    simp only [List.mem_append, not_or]
    exact ⟨⟨⟨hn, by decide⟩, toStr_slash itm⟩, by decide⟩
  unfold Csv.write_R_psl
  dsimp only
  refine Prog.Loc.bind (Q := fun _ => True) ?_ fun _ _ => ?_
  · unfold Csv.openApp
    split
    · exact Prog.Loc.emit hin
    · exact Prog.Loc.pure trivial
  refine Prog.Loc.bind (Prog.Loc.lift fun _ _ => trivial) fun pw _ => ?_
  split
  · refine Prog.Loc.bind (Q := fun _ => True) ?_ fun _ _ => rows_loc hin _ _
    unfold Csv.putHeader
    split
    · exact Prog.Loc.emit hin
    · exact Prog.Loc.pure trivial
  · exact Prog.Loc.pure trivial

theorem save_loc {io : IOEnv α} {g : Grid α} {J : Junk (Cx α)} {dir : List Char} {s : Main.Vars α} (hn : s.f.name = "f") :
    (Main.save io g J dir s).Loc dir (fun s' => s'.f.name = "f") := by
  unfold Main.save
  refine Prog.Loc.bind (Prog.Loc.lift fun _ _ => trivial) fun r _ => ?_
  obtain ⟨e, rho⟩ := r
  dsimp only
  refine Prog.Loc.bind (write_R_psl_loc (by rw [hn]; decide) _ _ _) fun _ _ => ?_
  refine Prog.Loc.bind (write_R_psl_loc (nm := "rho".toList) (by decide) _ _ _) fun _ _ => ?_
  exact Prog.Loc.pure hn

theorem iter_loc {io : IOEnv α} {P : ParamRec α} {g : Grid α} {J : Junk (Cx α)} {dir : List Char} {i : Nat} {s : Main.Vars α}
    (hn : s.f.name = "f") : (Main.iter io P g J dir i s).Loc dir (fun s' => s'.f.name = "f") := by
  unfold Main.iter
  refine Prog.Loc.bind (Q := fun (r : Eom α × Field α × Field α) => r.2.1.name = "f") (Prog.Loc.lift fun r hr => (time_step_name hr).trans hn) fun r hr => ?_
  obtain ⟨e, f, p⟩ := r
  dsimp only at hr ⊢
  refine Prog.Loc.bind (Prog.Loc.lift fun _ _ => trivial) fun q _ => ?_
  have tail : ∀ s' : Main.Vars α, s'.f.name = "f" → Prog.Loc (α := α) dir (fun s' => s'.f.name = "f") (do
      let f ← Prog.lift s'.f.shift
      let p ← Prog.lift s'.p.shift
      pure ({ s' with f := f, p := p } : Main.Vars α)) := by
    intro s' hs'
    refine Prog.Loc.bind (Q := fun (f' : Field α) => f'.name = "f") (Prog.Loc.lift fun f' hf' => (shift_name hf').trans hs') fun f' hf' => ?_
    refine Prog.Loc.bind (Prog.Loc.lift fun _ _ => trivial) fun p' _ => ?_
    exact Prog.Loc.pure hf'
  split
  · refine Prog.Loc.bind (Prog.Loc.lift fun _ _ => trivial) fun res _ => ?_
    refine Prog.Loc.bind (Prog.Loc.lift fun _ _ => trivial) fun tv _ => ?_
    refine Prog.Loc.bind (Prog.Loc.emit trivial) fun _ _ => ?_
    exact Prog.Loc.bind (save_loc hr) fun s' hs' => tail s' hs'
  · exact Prog.Loc.bind (Prog.Loc.pure (Q := fun (s' : Main.Vars α) => s'.f.name = "f") hr) fun s' hs' => tail s' hs'

theorem run_loc {E : Env α} {io : IOEnv α} {J : Junk (Cx α)} {dir : List Char} {P : ParamRec α} :
    (Main.run E io J dir P).Loc dir (fun _ => True) := by
  unfold Main.run
  dsimp only
  refine Prog.Loc.bind (Prog.Loc.lift fun _ _ => trivial) fun g _ => ?_
  refine Prog.Loc.bind (Prog.Loc.lift fun _ _ => trivial) fun e _ => ?_
  refine Prog.Loc.bind (Prog.Loc.lift fun _ _ => trivial) fun r _ => ?_
  refine Prog.Loc.bind (Prog.Loc.lift fun _ _ => trivial) fun r' _ => ?_
  refine Prog.Loc.bind (Prog.Loc.lift fun _ _ => trivial) fun res _ => ?_
  refine Prog.Loc.bind (Prog.Loc.lift fun _ _ => trivial) fun tv _ => ?_
  refine Prog.Loc.bind (Prog.Loc.emit trivial) fun _ _ => ?_
  refine Prog.Loc.bind (save_loc rfl) fun s hs => ?_
  refine Prog.Loc.bind (Prog.Loc.forRange (Q := fun (s : Main.Vars α) => s.f.name = "f") hs fun i s hs => iter_loc hs) fun _ _ => ?_
  exact Prog.Loc.pure trivial

theorem main_loc {E : Env α} {io : IOEnv α} {stod : List Char → Option α} {J : Junk (Cx α)} {files : List Char → Option (List Char)}
    {pf dir : List Char} : (Main.main E io stod J files [pf, dir]).Loc dir (fun _ => True) := by
  unfold Main.main
  refine Prog.Loc.bind (Prog.Loc.lift fun _ _ => trivial) fun _ _ => ?_
  refine Prog.Loc.bind (Prog.Loc.lift fun _ _ => trivial) fun pf' _ => ?_
  refine Prog.Loc.bind (Q := fun d => d = dir) (Prog.Loc.lift fun d hd => by cases hd; rfl) fun d hd => ?_
  subst hd
  refine Prog.Loc.bind (Prog.Loc.lift fun _ _ => trivial) fun P _ => ?_
  exact run_loc

end
end SFK
