import Verif.Spec.LaunchRun
import Verif.Props.Params
import Verif.Lemmas.Base
import Verif.Lemmas.LaunchFiles
/-
Lemmas for C85, C86, C87.
-/
namespace SFK
open Scalar
namespace Launcher
variable {α : Type} [Scalar α]

namespace Obj

theorem find_put_self (n : List Char) (v : PyObj α) (o : Obj α) : (put n v o).find n = some v := by
  induction o with
  | nil => simp [put, find]
  | cons a r ih =>
    obtain ⟨k, u⟩ := a
    by_cases h : k = n
    · simp [put, find, h]
    · simp [put, find, h, ih]

theorem find_put_ne {n m : List Char} (h : m ≠ n) (v : PyObj α) (o : Obj α) : (put n v o).find m = o.find m := by
  induction o with
  | nil => simp [put, find, Ne.symm h]
  | cons a r ih =>
    obtain ⟨k, u⟩ := a
    by_cases hk : k = n
    · subst hk
      simp [put, find, Ne.symm h]
    · simp only [put, hk, if_false, find]
      rw [ih]

theorem get_set (o : Obj α) (n m : String) (v : PyObj α) : (o.set n v).get m = if m = n then .ok v else o.get m := by
  unfold get set
  by_cases h : m = n
  · subst h
    rw [find_put_self, if_pos rfl]
  · have h' : m.toList ≠ n.toList := fun e => h (String.toList_inj.mp e)
    rw [find_put_ne h', if_neg h]

theorem mem_of_get {o : Obj α} {n : String} {v : PyObj α} (h : o.get n = .ok v) : (n.toList, v) ∈ o := by
  unfold get at h
  have : o.find n.toList = some v := by
    cases e : o.find n.toList with
    | none => rw [e] at h; cases h
    | some u => rw [e] at h; cases h; rfl
  clear h
  induction o with
  | nil => cases this
  | cons a r ih =>
    obtain ⟨k, u⟩ := a
    unfold find at this
    split at this
    · rename_i hk
      cases this
      subst hk
      exact List.mem_cons_self
    · exact List.mem_cons_of_mem _ (ih this)

theorem mem_put {o : Obj α} {n : List Char} {v : PyObj α} {a : List Char × PyObj α} (h : a ∈ put n v o) : a ∈ o ∨ a = (n, v) := by
  induction o with
  | nil =>
    right
    simpa [put] using h
  | cons b r ih =>
    obtain ⟨k, u⟩ := b
    unfold put at h
    split at h
    · rename_i hk
      rcases List.mem_cons.mp h with h | h
      · right; rw [h, hk]
      · left; exact List.mem_cons_of_mem _ h
    · rcases List.mem_cons.mp h with h | h
      · left; rw [h]; exact List.mem_cons_self
      · rcases ih h with h | h
        · left; exact List.mem_cons_of_mem _ h
        · right; exact h

theorem keys_put (n : List Char) (v : PyObj α) (o : Obj α) :
    (put n v o).map Prod.fst = if n ∈ o.map Prod.fst then o.map Prod.fst else o.map Prod.fst ++ [n] := by
  induction o with
  | nil => simp [put]
  | cons b r ih =>
    obtain ⟨k, u⟩ := b
    unfold put
    by_cases hk : k = n
    · simp [hk]
    · rw [if_neg hk, List.map_cons, ih]
      by_cases hn : n ∈ r.map Prod.fst
      · rw [if_pos hn, if_pos (by simp only [List.map_cons, List.mem_cons]; exact Or.inr hn), List.map_cons]
      · rw [if_neg hn, if_neg (by simp only [List.map_cons, List.mem_cons, not_or]; exact ⟨fun e => hk e.symm, hn⟩), List.map_cons,
          List.cons_append]

end Obj

theorem Clean.set {V : PyEnv α} {o : Obj α} (h : Clean V o) {n : String} {v : PyObj α} (h1 : ' ' ∉ n.toList) (h2 : '\n' ∉ n.toList)
    (h3 : '\n' ∉ V.str v) : Clean V (o.set n v) where
  names a ha := by
    rcases Obj.mem_put ha with ha | rfl
    · exact h.names a ha
    · exact ⟨h1, h2⟩
  texts a ha := by
    rcases Obj.mem_put ha with ha | rfl
    · exact h.texts a ha
    · exact h3
  distinct := by
    unfold Obj.set
    rw [Obj.keys_put]
    split
    · exact h.distinct
    · rename_i hn
      exact List.nodup_append.mpr ⟨h.distinct, List.nodup_singleton _, fun a ha b hb e => by
        rw [List.mem_singleton] at hb
        exact hn (hb ▸ e ▸ ha)⟩

theorem Clean.good {V : PyEnv α} {o : Obj α} (h : Clean V o) : GoodAttrs (o.map fun a => (a.1, V.val a.2)) where
  names a ha := by
    obtain ⟨b, hb, rfl⟩ := List.mem_map.mp ha
    exact h.names b hb
  values a ha t ht := by
    obtain ⟨b, hb, rfl⟩ := List.mem_map.mp ha
    have := h.texts b hb
    obtain ⟨k, v⟩ := b
    cases v <;> simp only [PyEnv.val, SFK.texts, List.mem_singleton] at ht <;> try (subst ht; exact this)
    intro hc
    apply this
    simp only [PyEnv.str, List.mem_flatMap]
    exact ⟨t, ht, List.mem_cons_of_mem _ hc⟩
  distinct := by
    rw [List.map_map]
    exact h.distinct

/-- reading back an attribute that is one word -/
theorem Clean.read {V : PyEnv α} {o : Obj α} (h : Clean V o) {n : String} {v : PyObj α} (hg : o.get n = .ok v) (h0 : V.str v ≠ [])
    (hs : ∀ c ∈ V.str v, White c = false) (hl : V.val v = .scalar (V.str v)) (nd : Bool) :
    Params.read nd (some (paramsText V o)) n = .ok (V.str v) := by
  refine C59_roundtrip h.good ?_ h0 hs nd
  rw [← hl]
  exact List.mem_map.mpr ⟨(n.toList, v), Obj.mem_of_get hg, rfl⟩

theorem IsNum.num {v : PyObj α} {x : α} (h : IsNum v x) : v.num = .ok x := by
  rcases h with rfl | ⟨n, rfl, rfl⟩ <;> rfl

theorem val_num {V : PyEnv α} {v : PyObj α} {x : α} (h : IsNum v x) : V.val v = .scalar (V.str v) := by
  rcases h with rfl | ⟨n, rfl, rfl⟩ <;> rfl

theorem Clean.readDbl {V : PyEnv α} {stod : List Char → Option α} {o : Obj α} (h : Clean V o) {n : String} {v : PyObj α} {x : α}
    (hg : o.get n = .ok v) (hr : Reads V stod v x) (nd : Bool) : Params.readDbl stod nd (some (paramsText V o)) n = .ok x := by
  unfold Params.readDbl
  rw [h.read hg hr.2.1 hr.2.2.1 (val_num hr.1), ok_bind, hr.2.2.2]

theorem digit_white {c : Char} (h : c.isDigit = true) : White c = false := by
  have h2 : 48 ≤ c.toNat ∧ c.toNat ≤ 57 := by
    simp only [Char.isDigit, Bool.and_eq_true, decide_eq_true_eq] at h
    exact ⟨h.1, h.2⟩
  unfold White
  simp only [decide_eq_false_iff_not]
  omega

theorem toDigits_digit {n : ℕ} {c : Char} (h : c ∈ Nat.toDigits 10 n) : c.isDigit = true := Nat.isDigit_of_mem_toDigits (by decide) (by decide) h

theorem toStr_ne (n : Int) : Text.toStr n ≠ [] := by
  unfold Text.toStr
  split
  · simp
  · exact Nat.toDigits_ne_nil

theorem toStr_white (n : Int) : ∀ c ∈ Text.toStr n, White c = false := by
  intro c hc
  unfold Text.toStr at hc
  split at hc
  · rcases List.mem_cons.mp hc with rfl | hc
    · decide
    · exact digit_white (toDigits_digit hc)
  · exact digit_white (toDigits_digit hc)

theorem stoi_toStr {n : Int} (h : IsInt n) : Text.stoi (Text.toStr n) = .ok n := by
  obtain ⟨h1, h2⟩ := h
  unfold Text.toStr
  split
  · rename_i hn
    have := (C58_negative_size_wraps (k := n.natAbs) (by omega) (by omega) (tail := []) (by simp)).1
    rw [List.append_nil] at this
    rw [this]
    congr 1
    omega
  · rename_i hn
    have := (C58_sizes_exact (n := n.natAbs) (by omega) (tail := []) (by simp)).1
    rw [List.append_nil] at this
    rw [this]
    congr 1
    omega

theorem Clean.readInt {V : PyEnv α} {o : Obj α} (h : Clean V o) {n : String} {k : Int} (hg : o.get n = .ok (.int k)) (hk : IsInt k)
    (nd : Bool) : Params.readInt nd (some (paramsText V o)) n = .ok k := by
  unfold Params.readInt
  rw [h.read hg (toStr_ne k) (toStr_white k) rfl, ok_bind]
  exact stoi_toStr hk

theorem size_nat {n : ℕ} (h : n < 2 ^ 31) : Params.size (n : Int) = n := (C58_sizes_exact h (tail := []) (by simp)).2

section derived
variable {V : PyEnv α} {stod : List Char → Option α} {toInt : α → Nat} {o : Obj α} {S : Settings α}

theorem num_of {v : PyObj α} {x : α} {n : String} (h : o.get n = .ok v) (hv : IsNum v x) : o.num n = .ok x := by
  unfold Obj.num
  rw [h, ok_bind, hv.num]

theorem int_of {k : Int} {n : String} (h : o.get n = .ok (.int k)) : o.int n = .ok k := by
  unfold Obj.int
  rw [h, ok_bind]
  rfl

theorem num_set {n m : String} (h : m ≠ n) (v : PyObj α) : (o.set n v).num m = o.num m := by
  unfold Obj.num
  rw [Obj.get_set, if_neg h]

theorem int_set {n m : String} (h : m ≠ n) (v : PyObj α) : (o.set n v).int m = o.int m := by
  unfold Obj.int
  rw [Obj.get_set, if_neg h]

theorem get_set_ne {n m : String} (h : m ≠ n) (v : PyObj α) : (o.set n v).get m = o.get m := by rw [Obj.get_set, if_neg h]

theorem get_set_self (n : String) (v : PyObj α) : (o.set n v).get n = .ok v := by rw [Obj.get_set, if_pos rfl]

/-- `dt` depends only on these attributes. -/
theorem dtOf_set {n : String} (v : PyObj α) (h : n ∉ ["use_cheb", "nx", "nlat", "nphi", "cfl"]) : dtOf V (o.set n v) = dtOf V o := by
  simp only [List.mem_cons, List.not_mem_nil, or_false, not_or] at h
  unfold dtOf
  simp only [get_set_ne (Ne.symm h.1), int_set (Ne.symm h.2.1), int_set (Ne.symm h.2.2.1), int_set (Ne.symm h.2.2.2.1),
    num_set (Ne.symm h.2.2.2.2)]

theorem lit_nat (n : ℕ) : (lit ((n : Int) : Rat) : α) = dbl n := by
  unfold dbl
  congr 1

theorem dtOf_eq (hD : Describes V stod o S) (hR : Regular V stod toInt S) : dtOf V o = .ok (timeStep S.use_cheb S.cfl S.nx S.nlat S.nphi) := by
  unfold dtOf timeStep
  rw [hD.use_cheb, ok_bind]
  have hp := hR.points
  have hs := hR.spacing
  have hc := hD.cfl
  cases hu : S.use_cheb with
  | true =>
    rw [hu, if_pos rfl] at hp
    simp only [PyObj.isTrue, if_true]
    rw [int_of hD.nx, ok_bind, int_of hD.nlat, ok_bind, int_of hD.nphi, ok_bind]
    have e : max (S.nx : Int) (max (S.nlat : Int) (S.nphi : Int)) = ((max S.nx (max S.nlat S.nphi) : ℕ) : Int) := by push_cast; rfl
    rw [e, if_neg (by exact_mod_cast hp), lit_nat]
  | false =>
    rw [hu] at hp
    simp only [Bool.false_eq_true, if_false] at hp
    obtain ⟨v, hv, hx⟩ := hc hu
    simp only [PyObj.isTrue, Bool.false_eq_true, if_false]
    rw [int_of hD.nlat, ok_bind, int_of hD.nphi, ok_bind]
    have e : max (S.nlat : Int) (S.nphi : Int) = ((max S.nlat S.nphi : ℕ) : Int) := by push_cast; rfl
    rw [e, if_neg (by exact_mod_cast hp), lit_nat, num_of hv hx, ok_bind, int_of hD.nx, ok_bind, lit_nat]
    unfold PyEnv.div
    rw [hs hu]
    rfl

/-- the object after `set_derived_params` -/
def derivedObj (o : Obj α) (hor rl ru Rmin dt : α) (cl : PyObj α) (nt ts : Int) : Obj α :=
  (((((((o.set "horizon" (.flt hor)).set "rl" (.flt rl)).set "ru" (.flt ru)).set "Rmin" (.flt Rmin)).set "Rmax" cl).set "dt" (.flt dt)).set
    "nt" (.int nt)).set "t_step_save" (.int ts)

theorem saveEvery_nat {nt num : ℕ} (h : num ≠ 0) : saveEvery nt num = .ok (tStepSave nt num : Int) := by
  unfold saveEvery tStepSave
  rw [if_neg (by exact_mod_cast h)]
  have e : Int.tdiv (nt : Int) (num : Int) = ((nt / num : ℕ) : Int) := by rfl
  rw [e]
  congr 1
  by_cases hz : nt / num = 0
  · simp [hz]
  · have hz' : ((nt / num : ℕ) : Int) ≠ 0 := by exact_mod_cast hz
    rw [if_neg hz']
    simp [hz]

theorem derived_eq {clv : PyObj α} (hcl : o.get "compactification_length" = .ok clv) (hD : Describes V stod o S)
    (hR : Regular V stod toInt S) :
    set_derived_params V o = .ok (derivedObj o (horizon S.mass S.spin) (params toInt S).rl (params toInt S).ru (params toInt S).Rmin
      (params toInt S).dt clv (params toInt S).nt (params toInt S).t_step_save) := by
  obtain ⟨vm, hm, hm', -⟩ := hD.mass
  obtain ⟨va, ha, ha', -⟩ := hD.spin
  obtain ⟨vT, hT, hT'⟩ := hD.evolve_time
  obtain ⟨v0, h0, h0'⟩ := hD.rl_0
  obtain ⟨v1, h1, h1'⟩ := hD.ru_0
  obtain ⟨vc, hc, hc', -⟩ := hD.cl
  have ecl : o.num "compactification_length" = .ok S.cl := num_of hc hc'
  unfold set_derived_params
  rw [num_of hm hm', ok_bind, num_of ha ha', ok_bind]
  dsimp only
  rw [hR.disc]
  simp only [Bool.not_false, if_true]
  rw [num_set (by decide), num_of h0 h0', ok_bind, num_set (by decide), num_set (by decide), num_of h1 h1', ok_bind]
  have ec : ∀ o' : Obj α, o'.num "compactification_length" = .ok S.cl →
      compact V o' (S.mass + rt ((S.mass - S.spin) * (S.mass + S.spin))) = .ok (Rmin S.cl S.mass S.spin) := by
    intro o' ho'
    unfold compact
    rw [ho', ok_bind]
    unfold PyEnv.div
    rw [hR.cl]
    simp only [Bool.false_eq_true, if_false]
    rw [ok_bind]
    have := hR.compact
    unfold horizon at this
    rw [this]
    rfl
  have er : ∀ o' : Obj α, o'.num "compactification_length" = .ok S.cl →
      rminOf V o' true (S.mass + rt ((S.mass - S.spin) * (S.mass + S.spin))) = .ok (.flt (Rmin S.cl S.mass S.spin)) := by
    intro o' ho'
    unfold rminOf
    rw [if_pos rfl, ec o' ho', ok_bind]
  rw [er _ (by rw [num_set (by decide), num_set (by decide), num_set (by decide)]; exact ecl), ok_bind]
  rw [get_set_ne (by decide), get_set_ne (by decide), get_set_ne (by decide), get_set_ne (by decide), hcl, ok_bind]
  rw [dtOf_set _ (by decide), dtOf_set _ (by decide), dtOf_set _ (by decide), dtOf_set _ (by decide), dtOf_set _ (by decide),
    dtOf_eq hD hR, ok_bind]
  rw [num_set (by decide), num_set (by decide), num_set (by decide), num_set (by decide), num_set (by decide), num_set (by decide),
    num_of hT hT', ok_bind]
  have hst := hR.steps
  have hz := hR.step
  unfold PyEnv.div
  rw [hz]
  simp only [Bool.false_eq_true, if_false]
  rw [ok_bind, hst, ok_bind]
  rw [int_set (by decide), int_set (by decide), int_set (by decide), int_set (by decide), int_set (by decide), int_set (by decide),
    int_set (by decide), int_of hD.num_saved_times, ok_bind, saveEvery_nat hR.saves, ok_bind]
  rfl

end derived

section solver
variable {V : PyEnv α} {stod : List Char → Option α} {toInt : α → Nat} {o : Obj α} {S : Settings α}

/-- the attributes settings speak about -/
def describedNames : List String :=
  ["black_hole_mass", "black_hole_spin", "compactification_length", "km1", "k0", "k1", "k2", "V2", "V3", "V4", "amp", "evolve_time",
    "rl_0", "ru_0", "cfl", "use_cheb", "num_saved_times", "nx", "nl", "nm", "nlat", "nphi", "l_ang", "m_ang", "initial_data_type",
    "initial_data_direction"]

theorem Describes.congr {o' : Obj α} (h : Describes V stod o S) (e : ∀ m ∈ describedNames, o'.get m = o.get m) : Describes V stod o' S := by
  constructor
  · rw [e _ (by decide)]; exact h.mass
  · rw [e _ (by decide)]; exact h.spin
  · rw [e _ (by decide)]; exact h.cl
  · rw [e _ (by decide)]; exact h.km1
  · rw [e _ (by decide)]; exact h.k0
  · rw [e _ (by decide)]; exact h.k1
  · rw [e _ (by decide)]; exact h.k2
  · rw [e _ (by decide)]; exact h.V2
  · rw [e _ (by decide)]; exact h.V3
  · rw [e _ (by decide)]; exact h.V4
  · rw [e _ (by decide)]; exact h.amp
  · rw [e _ (by decide)]; exact h.evolve_time
  · rw [e _ (by decide)]; exact h.rl_0
  · rw [e _ (by decide)]; exact h.ru_0
  · rw [e _ (by decide)]; exact h.cfl
  · rw [e _ (by decide)]; exact h.use_cheb
  · rw [e _ (by decide)]; exact h.num_saved_times
  · rw [e _ (by decide)]; exact h.nx
  · rw [e _ (by decide)]; exact h.nl
  · rw [e _ (by decide)]; exact h.nm
  · rw [e _ (by decide)]; exact h.nlat
  · rw [e _ (by decide)]; exact h.nphi
  · rw [e _ (by decide)]; exact h.l_ang
  · rw [e _ (by decide)]; exact h.m_ang
  · rw [e _ (by decide)]; exact h.id
  · rw [e _ (by decide)]; exact h.direction
  · exact h.id_word
  · exact h.direction_word

theorem Describes.set (h : Describes V stod o S) {n : String} (hn : n ∉ describedNames) (v : PyObj α) : Describes V stod (o.set n v) S := by
  refine h.congr fun m hm => ?_
  refine get_set_ne (fun e => ?_) v
  rw [e] at hm
  exact hn hm

theorem isInt_nat {n : ℕ} (h : n < 2 ^ 31) : IsInt (n : Int) := ⟨by omega, by omega⟩

/-- The solver reads the settings from the file. -/
theorem ctor_eq {clv : PyObj α} (hC : Clean V o) (hD : Describes V stod o S) (hR : Regular V stod toInt S)
    (hcl : o.get "compactification_length" = .ok clv) (hmax : o.get "Rmax" = .ok clv)
    (hnt : o.get "nt" = .ok (.int (params toInt S).nt)) (hts : o.get "t_step_save" = .ok (.int (params toInt S).t_step_save))
    (hdt : o.get "dt" = .ok (.flt (params toInt S).dt)) (hmin : o.get "Rmin" = .ok (.flt (params toInt S).Rmin))
    (hrl : o.get "rl" = .ok (.flt (params toInt S).rl)) (hru : o.get "ru" = .ok (.flt (params toInt S).ru)) (nd : Bool) :
    Params.ctor stod nd (some (paramsText V o)) = .ok (params toInt S) := by
  have hi := hR.ints
  simp only [List.mem_cons, List.not_mem_nil, or_false, forall_eq_or_imp, forall_eq] at hi
  obtain ⟨i1, i2, i3, i4, i5, i6, i7⟩ := hi
  have hp := hR.printed
  simp only [List.mem_cons, List.not_mem_nil, or_false, forall_eq_or_imp, forall_eq] at hp
  obtain ⟨p1, p2, p3, p4⟩ := hp
  obtain ⟨vm, hm, rm⟩ := hD.mass
  obtain ⟨va, ha, ra⟩ := hD.spin
  obtain ⟨vc, hc, rc⟩ := hD.cl
  obtain ⟨v1, h1, r1⟩ := hD.km1
  obtain ⟨v2, h2, r2⟩ := hD.k0
  obtain ⟨v3, h3, r3⟩ := hD.k1
  obtain ⟨v4, h4, r4⟩ := hD.k2
  obtain ⟨v5, h5, r5⟩ := hD.V2
  obtain ⟨v6, h6, r6⟩ := hD.V3
  obtain ⟨v7, h7, r7⟩ := hD.V4
  obtain ⟨v8, h8, r8⟩ := hD.amp
  have ecl : clv = vc := by rw [hcl] at hc; injection hc
  subst ecl
  unfold Params.ctor
  rw [hC.readInt hnt (isInt_nat i1) nd, ok_bind, hC.readInt hD.nx (isInt_nat i3) nd, ok_bind, hC.readInt hD.nl (isInt_nat i4) nd, ok_bind,
    hC.readInt hD.nm (isInt_nat i5) nd, ok_bind, hC.readInt hD.nlat (isInt_nat i6) nd, ok_bind, hC.readInt hD.nphi (isInt_nat i7) nd, ok_bind,
    hC.readInt hts (isInt_nat i2) nd, ok_bind, hC.readDbl hdt p1 nd, ok_bind, hC.readDbl hc rc nd, ok_bind, hC.readDbl hmax rc nd, ok_bind,
    hC.readDbl hmin p2 nd, ok_bind, hC.readDbl hm rm nd, ok_bind, hC.readDbl ha ra nd, ok_bind, hC.readDbl h1 r1 nd, ok_bind,
    hC.readDbl h2 r2 nd, ok_bind, hC.readDbl h3 r3 nd, ok_bind, hC.readDbl h4 r4 nd, ok_bind, hC.readDbl h5 r5 nd, ok_bind,
    hC.readDbl h6 r6 nd, ok_bind, hC.readDbl h7 r7 nd, ok_bind, hC.read hD.id hD.id_word.1 hD.id_word.2 rfl nd, ok_bind,
    hC.read hD.direction hD.direction_word.1 hD.direction_word.2 rfl nd, ok_bind, hC.readDbl h8 r8 nd, ok_bind, hC.readDbl hrl p3 nd, ok_bind,
    hC.readDbl hru p4 nd, ok_bind, hC.readInt hD.l_ang hR.l_ang nd, ok_bind, hC.readInt hD.m_ang hR.m_ang nd, ok_bind]
  rw [size_nat i1, size_nat i2, size_nat i3, size_nat i4, size_nat i5, size_nat i6, size_nat i7]
  rfl

/-- `main` with a readable parameter file is `run`. -/
theorem main_eq_run {E : Env α} {io : IOEnv α} {J : Junk (Cx α)} {files : List Char → Option (List Char)} {pf d : List Char} {P : ParamRec α}
    (h : Params.ctor stod E.ndebug (files pf) = .ok P) : Main.main E io stod J files [pf, d] = Main.run E io J d P := by
  have lift_ok : ∀ {σ τ : Type} (x : σ) (f : σ → Prog α τ), (Prog.lift (.ok x) >>= f) = f x := fun x f => rfl
  unfold Main.main
  have e0 : cassert E.ndebug ([pf, d].length + 1 == 3) = .ok () := by simp [cassert]
  rw [e0, lift_ok]
  have e1 : rd [pf, d] 0 = .ok pf := rfl
  have e2 : rd [pf, d] 1 = .ok d := rfl
  rw [e1, lift_ok, e2, lift_ok, h, lift_ok]

end solver

section files
variable {V : PyEnv α}

/-- Replaying the solver's events in the directory `dir`. -/
theorem foldl_event {dir : List Char} {es : List (Event α)} (hes : ∀ e ∈ es, EvIn ['.'] e) : ∀ (w : World) (fs : FS),
    (∀ r, w.files (dir ++ '/' :: r) = fs ('.' :: '/' :: r)) →
    (∀ r, (es.foldl (World.event dir) w).files (dir ++ '/' :: r) = fs.replay es ('.' :: '/' :: r)) ∧
    (∀ q, (∀ r, '/' ∉ r → ".csv".toList <:+ r → q ≠ dir ++ '/' :: r) → (es.foldl (World.event dir) w).files q = w.files q) ∧
    (es.foldl (World.event dir) w).dirs = w.dirs := by
  induction es with
  | nil => intro w fs h; exact ⟨h, fun _ _ => rfl, rfl⟩
  | cons e es ih =>
    intro w fs h
    have he := hes e List.mem_cons_self
    have hres : ∀ r : List Char, resolve dir ('.' :: '/' :: r) = dir ++ '/' :: r := fun r => rfl
    have key : ∀ (p r0 : List Char) (t : List Char), p = '.' :: '/' :: r0 → '/' ∉ r0 → ".csv".toList <:+ r0 →
        (∀ r, (w.put (resolve dir p) ((w.files (resolve dir p)).getD [] ++ t)).files (dir ++ '/' :: r)
          = if ('.' :: '/' :: r) = p then some ((fs ('.' :: '/' :: r)).getD [] ++ t) else fs ('.' :: '/' :: r)) ∧
        ∀ q, (∀ r, '/' ∉ r → ".csv".toList <:+ r → q ≠ dir ++ '/' :: r) → (w.put (resolve dir p) ((w.files (resolve dir p)).getD [] ++ t)).files q = w.files q := by
      intro p r0 t hp h0 hcsv
      subst hp
      rw [hres]
      refine ⟨fun r => ?_, fun q hq => ?_⟩
      · unfold World.put
        dsimp only
        by_cases hr : r = r0
        · subst hr
          rw [if_pos rfl, if_pos rfl, h]
        · rw [if_neg (by simpa using hr), if_neg (by simpa using hr), h]
      · unfold World.put
        dsimp only
        rw [if_neg (hq r0 h0 hcsv)]
    rw [List.foldl_cons]
    have step : (∀ r, (w.event dir e).files (dir ++ '/' :: r) = (fs.after e) ('.' :: '/' :: r)) ∧
        (∀ q, (∀ r, '/' ∉ r → ".csv".toList <:+ r → q ≠ dir ++ '/' :: r) → (w.event dir e).files q = w.files q) ∧ (w.event dir e).dirs = w.dirs := by
      cases e with
      | create p =>
        obtain ⟨r0, hp, h0, hcsv⟩ := he
        have hk := key p r0 [] (by rw [hp]; rfl) h0 hcsv
        simp only [List.append_nil] at hk
        exact ⟨hk.1, hk.2, rfl⟩
      | append p t =>
        obtain ⟨r0, hp, h0, hcsv⟩ := he
        have hk := key p r0 t (by rw [hp]; rfl) h0 hcsv
        exact ⟨hk.1, hk.2, rfl⟩
      | diag a b c => exact ⟨h, fun _ _ => rfl, rfl⟩
    have := ih (fun e he => hes e (List.mem_cons_of_mem _ he)) (w.event dir e) (fs.after e) step.1
    refine ⟨this.1, fun q hq => ?_, ?_⟩
    · rw [this.2.1 q hq, step.2.1 q hq]
    · rw [this.2.2, step.2.2]

end files

end Launcher
end SFK
