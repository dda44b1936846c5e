import Verif.Spec.Run
import Verif.Lemmas.Setup
import Verif.Lemmas.InitialData
/-
Closed form of a whole run (bitwise, for every scalar type).
-/
namespace SFK
open Scalar

namespace Prog
variable {α σ τ : Type}

theorem bind_mk_ok (es : List (Event α)) (x : σ) (f : σ → Prog α τ) :
    ((⟨es, .ok x⟩ : Prog α σ) >>= f) = ⟨es ++ (f x).events, (f x).result⟩ := rfl

theorem lift_ok_bind (x : σ) (f : σ → Prog α τ) : ((lift (.ok x) : Prog α σ) >>= f) = f x := rfl

theorem lift_err_bind (e : Err) (f : σ → Prog α τ) : ((lift (.error e) : Prog α σ) >>= f) = ⟨[], .error e⟩ := rfl

theorem emit_bind (e : Event α) (f : Unit → Prog α τ) : (emit e >>= f) = ⟨e :: (f ()).events, (f ()).result⟩ := rfl

theorem pure_bind' (x : σ) (f : σ → Prog α τ) : ((pure x : Prog α σ) >>= f) = f x := rfl

theorem pure_eq (x : σ) : (pure x : Prog α σ) = ⟨[], .ok x⟩ := rfl

theorem forN_closed {b : Nat → σ → Prog α σ} (S : Nat → σ) (T : Nat → List (Event α)) :
    ∀ (c i : Nat), (∀ j, i ≤ j → j < i + c → b j (S j) = ⟨T j, .ok (S (j + 1))⟩) →
      forN c i (S i) b = ⟨(List.range' i c).flatMap T, .ok (S (i + c))⟩
  | 0, i, _ => rfl
  | c + 1, i, h => by
    unfold forN
    rw [h i (Nat.le_refl _) (by omega)]
    show Prog.mk (T i ++ (forN c (i + 1) (S (i + 1)) b).events) (forN c (i + 1) (S (i + 1)) b).result = _
    rw [forN_closed S T c (i + 1) (fun j h1 h2 => h j (by omega) (by omega)), List.range'_succ, List.flatMap_cons]
    rw [show i + 1 + c = i + (c + 1) by omega]

theorem forRange_closed {b : Nat → σ → Prog α σ} (S : Nat → σ) (T : Nat → List (Event α)) {lo hi : Nat} (hl : lo ≤ hi)
    (h : ∀ j, lo ≤ j → j < hi → b j (S j) = ⟨T j, .ok (S (j + 1))⟩) :
    forRange lo hi (S lo) b = ⟨(List.range' lo (hi - lo)).flatMap T, .ok (S hi)⟩ := by
  unfold forRange
  rw [forN_closed S T (hi - lo) lo (fun j h1 h2 => h j h1 (by omega)), show lo + (hi - lo) = hi by omega]

theorem forRange_inv {b : Nat → σ → Prog α σ} (I : Nat → σ → Prop) (T : Nat → List (Event α)) {lo hi : Nat} (hl : lo ≤ hi) {s : σ}
    (h0 : I lo s) (h : ∀ j s, lo ≤ j → j < hi → I j s → ∃ s', b j s = ⟨T j, .ok s'⟩ ∧ I (j + 1) s') :
    ∃ s', forRange lo hi s b = ⟨(List.range' lo (hi - lo)).flatMap T, .ok s'⟩ ∧ I hi s' := by
  have key : ∀ c i s, i + c = hi → lo ≤ i → I i s → ∃ s', forN c i s b = ⟨(List.range' i c).flatMap T, .ok s'⟩ ∧ I hi s' := by
    intro c
    induction c with
    | zero => intro i s hi' _ hI; exact ⟨s, rfl, by rw [← hi']; exact hI⟩
    | succ c ih =>
      intro i s hi' hl' hI
      obtain ⟨s1, e1, h1⟩ := h i s hl' (by omega) hI
      obtain ⟨s2, e2, h2⟩ := ih (i + 1) s1 (by omega) (by omega) h1
      refine ⟨s2, ?_, h2⟩
      unfold forN
      rw [e1]
      show Prog.mk (T i ++ (forN c (i + 1) s1 b).events) (forN c (i + 1) s1 b).result = _
      rw [e2, List.range'_succ, List.flatMap_cons]
  exact key (hi - lo) lo s (by omega) (Nat.le_refl _) h0

theorem forRange_empty {b : Nat → σ → Prog α σ} {lo hi : Nat} (h : hi ≤ lo) (s : σ) : forRange lo hi s b = ⟨[], .ok s⟩ := by
  unfold forRange
  rw [show hi - lo = 0 by omega]
  rfl

end Prog

section
variable {α : Type} [Scalar α] {E : Env α} {P : ParamRec α} {g : Grid α} {e : Eom α} {io : IOEnv α} {M N : Nat → Junk (Cx α)}

/-- the lines of the table of `v`, in closed form -/
def tableP (io : IOEnv α) (g : Grid α) (v : List α) : List (List Char) :=
  "R,l,log(value)\n".toList :: (List.range g.d.nx).flatMap fun ix => (List.range g.d.nl).map fun l =>
      io.fmt (g.radial.ptV ix) ++ ",".toList ++ io.fmt (dbl l) ++ ",".toList
        ++ io.fmt (Csv.logValue (gv (g.specP v) (ix * g.d.nl + l))) ++ "\n".toList

theorem isTable_tableP (hw : g.Wf) {v : List α} (hv : v.length = g.d.total) : IsTable io g v (tableP io g v) := by
  refine ⟨g.specP v, g.radial.ptV, fun J z hz => hw.spectrum_eq J hv hz, ?_, rfl⟩
  intro ix it ip h1 h2 h3
  exact ⟨_, _, hw.getR_eq ⟨h1, h2, h3⟩⟩

/-- flattening a double loop -/
theorem range_mul_flatMap {β : Type} (a b : Nat) (f : Nat → β) :
    (List.range (a * b)).map f = (List.range a).flatMap fun i => (List.range b).map fun j => f (i * b + j) := by
  induction a with
  | zero => simp
  | succ a ih =>
    rw [Nat.succ_mul, List.range_add, List.map_append, ih, List.range_succ, List.flatMap_append, List.flatMap_singleton,
      List.map_map]
    rfl

theorem rows_eq (file : List Char) {n : Nat} (R L p : Nat → α) :
    Csv.rows io file (tab n fun i => ⟨R i, L i⟩) (tab n p) = ⟨(List.range n).map fun i => .append file
      (io.fmt (R i) ++ ",".toList ++ io.fmt (L i) ++ ",".toList ++ io.fmt (Csv.logValue (p i)) ++ "\n".toList), .ok ()⟩ := by
  unfold Csv.rows
  rw [tab_length, Prog.forRange_closed (fun _ => ()) (fun i => [.append file
      (io.fmt (R i) ++ ",".toList ++ io.fmt (L i) ++ ",".toList ++ io.fmt (Csv.logValue (p i)) ++ "\n".toList)]) (Nat.zero_le _)]
  · rw [Nat.sub_zero, ← List.range_eq_range']
    congr 1
    exact (List.map_eq_flatMap ..).symm
  · intro i _ hi
    rw [rd_tab hi, Prog.lift_ok_bind, rd_tab hi, Prog.lift_ok_bind]
    simp [Prog.emit]

theorem BuiltGrid.umul_nl (hS : BuiltGrid E P g) : umul g.d.nx g.d.nl = g.d.nx * g.d.nl := by
  rw [hS.dims]
  exact umul_of_lt hS.sizes.fitsl

/-- a column of numbers -/
def rowP (io : IOEnv α) (a b c : α) : List Char := io.fmt a ++ ",".toList ++ io.fmt b ++ ",".toList ++ io.fmt (Csv.logValue c) ++ "\n".toList

theorem rows_table (hS : BuiltGrid E P g) (file : List Char) {p : List α} (hp : p.length = g.d.nx * g.d.nl) (R : Nat → α) {cs : List (P2 α)}
    (hc : cs = tab (g.d.nx * g.d.nl) fun k => ⟨R (k / g.d.nl), dbl (k % g.d.nl)⟩) :
    Csv.rows io file cs p = ⟨((List.range g.d.nx).flatMap fun ix => (List.range g.d.nl).map fun l =>
      io.fmt (R ix) ++ ",".toList ++ io.fmt (dbl l) ++ ",".toList
        ++ io.fmt (Csv.logValue (gv p (ix * g.d.nl + l))) ++ "\n".toList).map (.append file), .ok ()⟩ := by
  have h0 := rows_eq (io := io) file (n := g.d.nx * g.d.nl) (fun k => R (k / g.d.nl)) (fun k => dbl (k % g.d.nl)) (gv p)
  rw [tab_gv' hp, ← hc, range_mul_flatMap] at h0
  rw [h0, List.map_flatMap]
  refine congrArg (fun x => Prog.mk x (.ok ())) (congrArg (fun f => List.flatMap f (List.range g.d.nx)) (funext fun ix => ?_))
  rw [List.map_map]
  apply List.map_congr_left
  intro l hl
  have hl' := List.mem_range.mp hl
  have h1 := Dims.div_mod_lemma (i := ix) hl'
  rw [Nat.mul_comm g.d.nl ix] at h1
  show Event.append _ _ = Event.append _ _
  rw [h1.1, h1.2]

/-- header (if wanted) and rows -/
def tableLines (io : IOEnv α) (sc : Bool) (h : String) (nx nl : Nat) (R : Nat → α) (p : List α) : List (List Char) :=
  (if sc then [h.toList] else []) ++ (List.range nx).flatMap fun ix => (List.range nl).map fun l =>
      io.fmt (R ix) ++ ",".toList ++ io.fmt (dbl l) ++ ",".toList ++ io.fmt (Csv.logValue (gv p (ix * nl + l))) ++ "\n".toList

theorem write_R_psl_gen (hS : BuiltGrid E P g) (J : Junk (Cx α)) (name : List Char) (sc : Bool) (itm : Int) {v : List α}
    (hv : v.length = g.d.total) :
    Csv.write_R_psl io g J name sc itm v
      = ⟨fileEvents io (name ++ "_RPsl_".toList ++ Text.toStr itm ++ ".csv".toList)
          (tableLines io sc "R,l,log(value)\n" g.d.nx g.d.nl g.radial.ptV (g.specP v)), .ok ()⟩ := by
  unfold Csv.write_R_psl
  dsimp only
  generalize name ++ "_RPsl_".toList ++ Text.toStr itm ++ ".csv".toList = file
  rw [hS.umul_nl, hS.wf.spectrum_eq J hv (by simp)]
  have hr := rows_table (io := io) hS file (p := g.specP v) (by simp [Grid.specP]) g.radial.ptV hS.wf.R_l
  by_cases hc : io.canOpen file = true
  · simp only [Csv.openApp, if_pos hc, Prog.lift_ok_bind, hr, Csv.putHeader, Prog.emit_bind]
    unfold fileEvents tableLines
    rw [if_pos hc]
    cases sc <;> rfl
  · simp only [Csv.openApp, if_neg hc, Prog.lift_ok_bind, Prog.pure_bind']
    unfold fileEvents
    rw [if_neg hc]
    rfl

/-- coefficients in both the Chebyshev degree and the harmonic degree -/
def Grid.nlP (g : Grid α) (c : Cheb α) (v : List α) : List α :=
  tab (g.d.nx * g.d.nl) fun k => gv (c.toChP (tab g.d.nx fun ix => rt (gv (g.specP v) (ix * g.d.nl + k % g.d.nl)))) (k / g.d.nl)

theorem set_n_l_coef_eq (hw : g.Wf) {c : Cheb α} (hg : g.radial = .cheb c) (J : Junk (Cx α)) {v p : List α} (hv : v.length = g.d.total)
    (hp : p.length = g.d.nx * g.d.nl) : g.set_n_l_coef c J v p = .ok (g.nlP c v) := by
  have hc : c.n = g.d.nx ∧ c.Wf := by have := hw.rad; rw [hg] at this; exact this
  have hsl : (g.specP v).length = g.d.nx * g.d.nl := by simp [Grid.specP]
  unfold Grid.set_n_l_coef
  rw [cassert_true _ _ (by simp [hv, hw.nTot_eq]), ok_bind, cassert_true _ _ (by simp [hp, hw.ok.nxnl]), ok_bind,
    hw.spectrum_eq J hv hp, ok_bind]
  unfold Grid.nlP
  rw [forRange_closed (fun L => tab (g.d.nx * g.d.nl) fun k => if k % g.d.nl < L then
    gv (c.toChP (tab g.d.nx fun ix => rt (gv (g.specP v) (ix * g.d.nl + k % g.d.nl)))) (k / g.d.nl) else gv (g.specP v) k) (Nat.zero_le _)]
  · congr 1
    apply tab_congr
    intro k hk
    rw [if_pos (Nat.mod_lt _ (Nat.pos_of_mul_pos_left (by omega : 0 < g.d.nx * g.d.nl)))]
  · rw [← tab_gv' hsl]
    apply tab_congr
    intro k hk
    rw [if_neg (Nat.not_lt_zero _), gv_tab hk]
  · intro L _ hL
    rw [hw.ok.get_row_n_eq hL (by simp) (by simp), ok_bind]
    have e0 : (tab g.d.nx fun ix => gv (tab (g.d.nx * g.d.nl) fun k => if k % g.d.nl < L then
        gv (c.toChP (tab g.d.nx fun ix => rt (gv (g.specP v) (ix * g.d.nl + k % g.d.nl)))) (k / g.d.nl) else gv (g.specP v) k)
        (g.d.nl * ix + L)) = tab g.d.nx fun ix => gv (g.specP v) (ix * g.d.nl + L) := by
      apply tab_congr
      intro ix hx
      rw [gv_tab (Dims.mul_add_lt hx hL), (Dims.div_mod_lemma hL).2, if_neg (Nat.lt_irrefl _), Nat.mul_comm]
    rw [e0, forRange_fill (n := g.d.nx) (fun ix => rt (gv (g.specP v) (ix * g.d.nl + L))) (by simp) (fun ix w hx hw' hg' => by
      rw [rd_ok (by omega), ok_bind, hg', gv_tab hx]), ok_bind,
      Cheb.to_ch_eq hc.2 (by simp [hc.1]) (by simp [hc.1]), ok_bind, hw.ok.set_row_n_eq hL (by simp [Cheb.toChP, hc.1]) (by simp)]
    congr 1
    apply tab_congr
    intro k hk
    rw [gv_tab hk]
    by_cases h1 : k % g.d.nl = L
    · rw [if_pos h1, if_pos (by omega), h1]
    · rw [if_neg h1]
      by_cases h2 : k % g.d.nl < L
      · rw [if_pos h2, if_pos (by omega)]
      · rw [if_neg h2, if_neg (by omega)]

theorem write_n_psl_gen (hS : BuiltGrid E P g) {c : Cheb α} (hg : g.radial = .cheb c) (J : Junk (Cx α)) (name : List Char) (sc : Bool)
    (itm : Int) {v : List α} (hv : v.length = g.d.total) :
    Csv.write_n_psl io g c J name sc itm v
      = ⟨fileEvents io (name ++ "_NPsl_".toList ++ Text.toStr itm ++ ".csv".toList)
          (tableLines io sc "n,l,log(value)\n" g.d.nx g.d.nl dbl (g.nlP c v)), .ok ()⟩ := by
  unfold Csv.write_n_psl
  dsimp only
  generalize name ++ "_NPsl_".toList ++ Text.toStr itm ++ ".csv".toList = file
  rw [hS.umul_nl, set_n_l_coef_eq hS.wf hg J hv (by simp)]
  have hr := rows_table (io := io) hS file (p := g.nlP c v) (by simp [Grid.nlP]) dbl hS.wf.n_l
  by_cases hc : io.canOpen file = true
  · simp only [Csv.openApp, if_pos hc, Prog.lift_ok_bind, hr, Csv.putHeader, Prog.emit_bind]
    unfold fileEvents tableLines
    rw [if_pos hc]
    cases sc <;> rfl
  · simp only [Csv.openApp, if_neg hc, Prog.lift_ok_bind, Prog.pure_bind']
    unfold fileEvents
    rw [if_neg hc]
    rfl

theorem write_gen (name : List Char) (itm : Nat) (v : List α) :
    Csv.write io name itm v = ⟨fileEvents io (name ++ "_".toList ++ Nat.toDigits 10 itm ++ ".csv".toList)
      (v.map fun x => io.fmt x ++ "\n".toList), .ok ()⟩ := by
  unfold Csv.write Csv.ustr
  dsimp only
  generalize name ++ "_".toList ++ Nat.toDigits 10 itm ++ ".csv".toList = file
  by_cases hc : io.canOpen file = true
  · simp only [Csv.openApp, if_pos hc, Prog.emit_bind]
    rw [Prog.forRange_closed (fun _ => ()) (fun i => [.append file (io.fmt (gv v i) ++ ['\n'])]) (Nat.zero_le _)
      (fun i _ hi => by rw [rd_ok hi, Prog.lift_ok_bind]; rfl)]
    unfold fileEvents
    rw [if_pos hc, Nat.sub_zero, ← List.range_eq_range', List.map_map]
    refine congrArg (fun x => Prog.mk (_ :: x) (.ok ())) ?_
    conv_rhs => rw [← tab_gv v]
    unfold tab
    rw [List.map_map, ← List.map_eq_flatMap]
    rfl
  · simp only [Csv.openApp, if_neg hc, Prog.pure_bind']
    unfold fileEvents
    rw [if_neg hc]
    rfl

theorem write_R_psl_eq (hS : BuiltGrid E P g) (J : Junk (Cx α)) (dir : List Char) (nm : String) {k : Nat} (hk : k < 2 ^ 31) {v : List α}
    (hv : v.length = g.d.total) :
    Csv.write_R_psl io g J (dir ++ '/' :: nm.toList) true (Main.toInt k) v
      = ⟨fileEvents io (pathOf dir nm k) (tableP io g v), .ok ()⟩ := by
  have hi : Main.toInt k = (k : Int) := by unfold Main.toInt; omega
  have hp : dir ++ '/' :: nm.toList ++ "_RPsl_".toList ++ Text.toStr (Main.toInt k) ++ ".csv".toList = pathOf dir nm k := by
    rw [hi]
    unfold Text.toStr pathOf
    rw [if_neg (by omega), Int.natAbs_natCast]
  rw [write_R_psl_gen hS J _ true _ hv, hp]
  rfl

/-! ### diagnostics and initial data never fail -/

theorem norm_indep_res_ok (hw : g.Wf) (dt : α) {a b p : List α} (ha : a.length = g.d.total) (hb : b.length = g.d.total)
    (hp : p.length = g.d.total) : ∃ y, g.norm_indep_res dt a b p = .ok y := by
  unfold Grid.norm_indep_res
  rw [hw.nTot_eq, cassert_true _ _ (by simp [ha]), ok_bind, cassert_true _ _ (by simp [hb]), ok_bind, cassert_true _ _ (by simp [hp]),
    ok_bind]
  obtain ⟨s', h1, _⟩ := forRange_inv (lo := 0) (hi := g.d.total) (s := (0 : α)) (b := fun i res => do
    let x ← rd p i
    let b ← rd b i
    let a ← rd a i
    .ok (res + pown (x - ((b - a) / dt)) 2)) (fun _ _ => True) (Nat.zero_le _) trivial (fun i s _ hi _ => by
      exact ⟨s + pown (gv p i - ((gv b i - gv a i) / dt)) 2,
        by rw [rd_ok (by omega), ok_bind, rd_ok (by omega), ok_bind, rd_ok (by omega), ok_bind], trivial⟩)
  exact ⟨_, by rw [h1, ok_bind]⟩

theorem total_variation_ok (hS : BuiltGrid E P g) {v : List α} (hv : v.length = g.d.total) : ∃ y, g.total_variation v = .ok y := by
  have hw := hS.wf
  have h1 := hS.sizes.two
  have h2 := hS.sizes.nlat_pos
  have h3 := hS.sizes.nphi_pos
  have hlW : P.nlat < W := by
    have := hS.sizes.fits
    have : P.nlat ≤ P.nx * P.nlat * P.nphi := by
      calc P.nlat ≤ P.nx * P.nlat := Nat.le_mul_of_pos_left _ (by omega)
        _ ≤ _ := Nat.le_mul_of_pos_right _ h3
    omega
  have hpW : P.nphi < W := by
    have := hS.sizes.fits
    have : P.nphi ≤ P.nx * P.nlat * P.nphi := Nat.le_mul_of_pos_left _ (Nat.mul_pos (by omega) h2)
    omega
  have e1 : usub g.d.nx 1 = P.nx - 1 := by rw [hS.dims]; exact usub_of_le h1.2 (Nat.le_trans (by decide) h1.1)
  have e2 : usub g.d.nlat 1 = P.nlat - 1 := by rw [hS.dims]; exact usub_of_le hlW h2
  have e3 : usub g.d.nphi 1 = P.nphi - 1 := by rw [hS.dims]; exact usub_of_le hpW h3
  have hrd : ∀ {ix it ip}, ix < P.nx → it < P.nlat → ip < P.nphi → rd v (g.d.indx_R_th_ph ix it ip) = .ok (g.d.at3 v ix it ip) :=
    fun a b c => hw.ok.rd3 hv (hS.inR a b c)
  unfold Grid.total_variation
  rw [hw.nTot_eq, cassert_true _ _ (by simp [hv]), ok_bind, e1, e2, e3]
  obtain ⟨s', h, _⟩ := forRange_inv (lo := 0) (hi := P.nx - 1) (s := (0 : α)) (b := fun ix tv =>
    forRange 0 (P.nlat - 1) tv fun it tv => forRange 0 (P.nphi - 1) tv fun ip tv => do
      let c ← rd v (g.d.indx_R_th_ph ix it ip)
      let x ← rd v (g.d.indx_R_th_ph (ix + 1) it ip)
      let y ← rd v (g.d.indx_R_th_ph ix (it + 1) ip)
      let z ← rd v (g.d.indx_R_th_ph ix it (ip + 1))
      .ok (tv + rt (pown (x - c) 2 + pown (y - c) 2 + pown (z - c) 2))) (fun _ _ => True) (Nat.zero_le _) trivial (fun ix s _ hx _ =>
    forRange_inv (fun _ _ => True) (Nat.zero_le _) trivial (fun it s _ ht _ =>
      forRange_inv (fun _ _ => True) (Nat.zero_le _) trivial (fun ip s _ hp _ => by
        rw [hrd (by omega) (by omega) (by omega), ok_bind, hrd (by omega) (by omega) (by omega), ok_bind,
          hrd (by omega) (by omega) (by omega), ok_bind, hrd (by omega) (by omega) (by omega), ok_bind]
        exact ⟨_, rfl, trivial⟩)))
  exact ⟨_, by rw [h, ok_bind]⟩

theorem Valid.setup (hV : Valid E P) : ∃ g, Grid.ctor E P.cl P.Rmin P.Rmax P.nx P.nl P.nm P.nlat P.nphi = .ok g ∧ BuiltGrid E P g := by
  obtain ⟨g, hg, _⟩ := Grid.ctor_wf hV.sized hV.sizes P.cl P.Rmin P.Rmax
  exact ⟨g, hg, hV.sized, hV.sizes, hg⟩

theorem compact_pulse_ok (hV : Valid E P) (hS : BuiltGrid E P g) {f p : List α} (hf : f.length = g.d.total) (hp : p.length = g.d.total) :
    ∃ a b, a.length = g.d.total ∧ b.length = g.d.total ∧ ∀ J, ID.compact_pulse P g J f p = .ok (a, b) := by
  have hw := hS.wf
  have hU : ∀ z : Int, 0 ≤ z → z ≤ P.nl → Sphere.toU z = z.toNat := by
    intro z h1 h2
    unfold Sphere.toU
    have := hV.sizes.nl_lt
    rw [Int.emod_eq_of_lt h1 (by unfold W; omega)]
  have ul := hU P.l_ang (by have := hV.m_nonneg; have := hV.m_le_l; omega) hV.l_le
  have um := hU P.m_ang hV.m_nonneg (by have := hV.l_le; have := hV.m_le_l; omega)
  have a1 := hV.m_nonneg
  have a2 := hV.m_le_l
  have a3 := hV.l_le
  have a4 := hV.m_le
  have hr : g.sphere.sht.Res P.l_ang.toNat P.m_ang.toNat := by
    refine ⟨by omega, ?_, ?_⟩
    · rw [hw.sph.api.lmax_eq, hw.lmax, hS.dims]; show _ ≤ P.nl; omega
    · rw [hw.sph.api.mmax_eq, hw.mmax, hS.dims]; show _ ≤ P.nm; omega
  have hy : ∀ J, g.compute_ylm J (Sphere.toU P.l_ang) (Sphere.toU P.m_ang) = .ok (g.sphere.sht.shToSpat (g.sphere.unitLM P.l_ang.toNat
      P.m_ang.toNat)) := by
    intro J
    rw [ul, um]
    exact hw.sph.compute_ylm_eq J hr
  have hl : (g.sphere.sht.shToSpat (g.sphere.unitLM P.l_ang.toNat P.m_ang.toNat)).length = g.d.shell := by
    rw [hw.sph.api.len_shToSpat _ (by simp [Sphere.unitLM]), hw.sph.api.nspat_eq, hw.nlat, hw.nphi]
    rfl
  obtain ⟨m, hm⟩ := ID.maxLoop_ok (g.d.nx - 1) g.d.nphi g.d.nlat (ID.fV P g (g.sphere.sht.shToSpat (g.sphere.unitLM P.l_ang.toNat
      P.m_ang.toNat)))
  exact ⟨_, _, by simp, by simp, fun J => ID.compact_pulse_eq hw P J (hy J) hl hf hp hm⟩

/-- The history of a set-up exists. -/
theorem exists_history (hV : Valid E P) (hS : BuiltGrid E P g) (M : Nat → Junk (Cx α)) : ∃ F Q A B, History P g M F Q A B := by
  have hw := hS.wf
  have ht := hS.total
  obtain ⟨a, b, ha, hb, hab⟩ := compact_pulse_ok hV hS (f := List.replicate g.d.total (lit 0)) (p := List.replicate g.d.total (lit 0))
    (by simp) (by simp)
  obtain ⟨e0, _, h0⟩ := Eom.Of.existsB hS
  obtain ⟨s0, _, he0⟩ := h0.eqB hS
  let st : Nat → List α × List α := fun k => Nat.rec (a, b) (fun i s => e0.stepJ g (M i) (g.filtP s.1) (g.filtP s.2)) k
  have hlen : ∀ k, (st k).1.length = g.d.total ∧ (st k).2.length = g.d.total := by
    intro k
    cases k with
    | zero => exact ⟨ha, hb⟩
    | succ k => exact ⟨Eom.stepJ_len1 _ _ _, Eom.stepJ_len2 _ _ _⟩
  refine ⟨fun k => (st k).1, fun k => (st k).2, fun k => g.filtP (st k).1, fun k => g.filtP (st k).2, ?_⟩
  constructor
  · intro k; rw [← ht]; exact hlen k
  · intro J; rw [← ht]; exact hab J
  · intro k J; exact hw.filter_eq J (hlen k).1
  · intro k J; exact hw.filter_eq J (hlen k).2
  · intro k e f p he hf hp hn hq
    rw [← ht] at hf hp
    have h1 := Eom.time_step_junk_eq hw (he.wf0 hS) (M k) hf hp
    dsimp only at h1
    obtain ⟨s1, _, he1⟩ := he.eqB hS
    have hst : ∀ u v, e.stepJ g (M k) u v = e0.stepJ g (M k) u v := by
      intro u v
      rw [he1, he0]
      rfl
    refine ⟨_, _, _, h1, ?_, ?_, ?_, ?_⟩
    · show (e.stepJ g _ _ _).1 = _
      rw [hn, hq, hst]
    · show (e.stepJ g _ _ _).2 = _
      rw [hn, hq, hst]
    · show g.filtP f.n = _
      rw [hn]
    · show g.filtP p.n = _
      rw [hq]

/-- What is derived from the history exists. -/
theorem exists_derived (hS : BuiltGrid E P g) (io : IOEnv α) (N : Nat → Junk (Cx α)) {F Q A B : Nat → List α} (hH : History P g M F Q A B) :
    ∃ D tF tD res tv, Derived P g io N F Q A B D tF tD res tv := by
  have hw := hS.wf
  have ht := hS.total
  obtain ⟨e0, _, h0⟩ := Eom.Of.existsB hS
  obtain ⟨s0, _, he0⟩ := h0.eqB hS
  have hlen := hH.len
  rw [← ht] at hlen
  have hA : ∀ k, (A k).length = g.d.total := by
    intro k
    have h1 := (hw.filter_eq (fun _ _ => ⟨lit 0, lit 0⟩ : Junk (Cx α)) (hlen k).1).symm.trans (hH.filtF k _)
    injection h1 with h1
    rw [← h1]
    simp
  have hB : ∀ k, (B k).length = g.d.total := by
    intro k
    have h1 := (hw.filter_eq (fun _ _ => ⟨lit 0, lit 0⟩ : Junk (Cx α)) (hlen k).2).symm.trans (hH.filtQ k _)
    injection h1 with h1
    rw [← h1]
    simp
  obtain ⟨r0, hr0⟩ := norm_indep_res_ok hw P.dt (hlen 0).1 (hlen 0).1 (hlen 0).2
  have hr : ∀ k, ∃ y, g.norm_indep_res P.dt (A k) (F (k + 1)) (B k) = .ok y :=
    fun k => norm_indep_res_ok hw P.dt (hA k) (hlen (k + 1)).1 (hB k)
  have hv : ∀ k, ∃ y, g.total_variation (F k) = .ok y := fun k => total_variation_ok hS (hlen k).1
  choose r hr using hr
  choose v hv using hv
  refine ⟨fun k => e0.rhoJ g (N k) (F k) (Q k), fun k => tableP io g (F k), fun k => tableP io g (e0.rhoJ g (N k) (F k) (Q k)),
    fun k => Nat.casesOn k r0 r, v, ?_⟩
  constructor
  · intro k e z he hz
    rw [← ht] at hz
    obtain ⟨s1, _, he1⟩ := he.eqB hS
    have h2 := Eom.set_rho_junk_eq hw (he.wf0 hS) (N k) (hlen k).1 (hlen k).2 hz
    rw [show e.rhoJ g (N k) (F k) (Q k) = e0.rhoJ g (N k) (F k) (Q k) by rw [he1, he0]; rfl] at h2
    exact ⟨_, h2⟩
  · intro k; exact isTable_tableP hw (hlen k).1
  · intro k; exact isTable_tableP hw (by simp)
  · exact hr0
  · exact hr
  · exact hv

theorem IsTable.unique (hw : g.Wf) {v : List α} (hv : v.length = g.d.total) {t : List (List Char)} (h : IsTable io g v t) :
    t = tableP io g v := by
  obtain ⟨S, R, h1, h2, rfl⟩ := h
  have e1 := (hw.spectrum_eq (fun _ _ => ⟨lit 0, lit 0⟩ : Junk (Cx α)) hv (p := List.replicate (g.d.nx * g.d.nl) 0) (by simp)).symm.trans
    (h1 _ _ (by simp))
  injection e1 with e1
  subst e1
  have e2 : ∀ ix, ix < g.d.nx → R ix = g.radial.ptV ix := by
    intro ix hx
    obtain ⟨θ, φ, h3⟩ := h2 ix 0 0 hx hw.ok.nlat_pos hw.ok.nphi_pos
    rw [hw.getR_eq ⟨hx, hw.ok.nlat_pos, hw.ok.nphi_pos⟩] at h3
    injection h3 with h3
    injection h3 with h3
    exact h3.symm
  unfold tableP
  refine congrArg _ ?_
  rw [List.flatMap_congr]
  intro ix hx
  rw [e2 ix (List.mem_range.mp hx)]

theorem Eom.Of.of_wf (he : Eom.Of g P e) {s : Scratch α} (hS : BuiltGrid E P g) (hs : Eom.ScrOk s g.d.total) : Eom.Of g P { e with scr := s } := by
  refine he.scr ?_
  rw [← hS.total]
  exact hs

/-- one save -/
theorem save_eq (hS : BuiltGrid E P g) {F Q A B D : Nat → List α} {tF tD : Nat → List (List Char)} {res tv : Nat → α}
    (hH : History P g M F Q A B) (hD : Derived P g io N F Q A B D tF tD res tv) (J : Junk (Cx α)) (dir : List Char) {s : Main.Vars α} {k : Nat}
    (hk : s.save_indx < 2 ^ 31) (he : Eom.Of g P s.e) (hn : s.f.name = "f") (hf : s.f.np1 = F k) (hp : s.p.np1 = Q k)
    (hr : s.rho.length = g.d.total) (hN : J.sub 0 = N k) :
    ∃ e' rho', Main.save io g J dir s = ⟨fileEvents io (pathOf dir "f" s.save_indx) (tF k)
        ++ fileEvents io (pathOf dir "rho" s.save_indx) (tD k), .ok { s with e := e', rho := rho' }⟩ ∧ Eom.Of g P e' ∧
      rho'.length = g.d.total := by
  have hw := hS.wf
  have hlen := hH.len
  rw [← hS.total] at hlen
  have h1 := Eom.set_rho_junk_eq hw (he.wf0 hS) (N k) (hlen k).1 (hlen k).2 hr
  obtain ⟨e1, h2⟩ := hD.dens k s.e s.rho he (hr.trans hS.total)
  have h3 := h1.symm.trans h2
  injection h3 with h3
  injection h3 with h3 h4
  have hDl : (D k).length = g.d.total := by rw [← h4]; simp
  refine ⟨e1, D k, ?_, ?_, hDl⟩
  · unfold Main.save
    have hrho : dir ++ "/rho".toList = dir ++ '/' :: "rho".toList := rfl
    rw [hf, hp, hN, h2, Prog.lift_ok_bind]
    dsimp only
    rw [hn, write_R_psl_eq hS _ dir "f" hk (hlen k).1, hrho, write_R_psl_eq hS _ dir "rho" hk hDl, (hD.tabF k).unique hw (hlen k).1,
      (hD.tabD k).unique hw hDl, Prog.bind_mk_ok, Prog.bind_mk_ok, Prog.pure_eq]
    simp only [List.append_nil]
  · rw [← h3]
    refine he.of_wf hS ?_
    obtain ⟨s1, s2, s3, s4, s5, s6, s7⟩ := (he.wf0 hS).scr
    exact ⟨by simp, s2, s3, s4, by simp, s6, by simp⟩

/-- what holds at the top of the loop body -/
structure LoopInv (P : ParamRec α) (g : Grid α) (F Q : Nat → List α) (itm : Nat) (s : Main.Vars α) : Prop where
  idx : s.save_indx = (itm - 1) / P.t_step_save
  of : Eom.Of g P s.e
  okf : Eom.FieldOk s.f g.d.total
  okp : Eom.FieldOk s.p g.d.total
  fn : s.f.n = F (itm - 1)
  pn : s.p.n = Q (itm - 1)
  name : s.f.name = "f"
  rho : s.rho.length = g.d.total

theorem iter_eq (hV : Valid E P) (hS : BuiltGrid E P g) {F Q A B D : Nat → List α} {tF tD : Nat → List (List Char)} {res tv : Nat → α}
    (hH : History P g M F Q A B) (hD : Derived P g io N F Q A B D tF tD res tv) (hts : 1 ≤ P.t_step_save) (J : Junk (Cx α))
    (dir : List Char) {s : Main.Vars α} {itm : Nat} (h1 : 1 ≤ itm) (hnt : itm < P.nt) (hI : LoopInv P g F Q itm s)
    (hM : J.sub 0 = M (itm - 1)) (hN : (J.sub 1).sub 0 = N itm) :
    ∃ s', Main.iter io P g J dir itm s = ⟨if itm % P.t_step_save = 0 then saveEvents io dir tF tD res tv (P.dt * dbl itm)
      (itm / P.t_step_save) itm else [], .ok s'⟩ ∧ LoopInv P g F Q (itm + 1) s' := by
  have hw := hS.wf
  obtain ⟨k, rfl⟩ : ∃ k, itm = k + 1 := ⟨itm - 1, by omega⟩
  obtain ⟨idx, of, okf, okp, fn, pn, name, rho⟩ := hI
  rw [Nat.add_sub_cancel] at idx fn pn hM
  have hlen := hH.len
  rw [← hS.total] at hlen
  have e1 := Eom.time_step_junk_eq hw (of.wf0 hS) (M k) okf okp
  dsimp only at e1
  have sz : ∀ {f : Field α}, Eom.FieldOk f g.d.total → f.Sized (P.nx * P.nlat * P.nphi) := by
    intro f h
    rw [← hS.total]
    exact h
  obtain ⟨e', f', p', e2, f1, p1, f2, p2⟩ := hH.step k s.e s.f s.p of (sz okf) (sz okp) fn pn
  have e3 := e1.symm.trans e2
  injection e3 with e3
  injection e3 with e3 e4
  injection e4 with e4 e5
  have of' : Eom.Of g P e' := by
    rw [← e3]
    exact of.of_wf hS (by simp [Eom.ScrOk, Eom.scrJ])
  obtain ⟨a1, a2, a3, a4, a5⟩ := okf
  obtain ⟨b1, b2, b3, b4, b5⟩ := okp
  have okf' : Eom.FieldOk f' g.d.total := by
    rw [← e4]
    exact ⟨by simp, by simp [Eom.LJ4], by simp, by simp [Eom.LJ4], a5⟩
  have okp' : Eom.FieldOk p' g.d.total := by
    rw [← e5]
    exact ⟨by simp, by simp [Eom.LJ4], by simp, by simp [Eom.LJ4], b5⟩
  have name' : f'.name = "f" := by rw [← e4]; exact name
  have hfs := Field.shift_eq (f := f') (by rw [okf'.1, okf'.2.2.2.2]) (by rw [okf'.2.2.1, okf'.2.2.2.2])
  have hps := Field.shift_eq (f := p') (by rw [okp'.1, okp'.2.2.2.2]) (by rw [okp'.2.2.1, okp'.2.2.2.2])
  have hum : Main.umod (k + 1) P.t_step_save = .ok ((k + 1) % P.t_step_save) := by
    unfold Main.umod
    rw [if_neg (by omega)]
  have hnt' := hV.nt_lt
  have hdiv := Nat.succ_div (a := k) (b := P.t_step_save)
  simp only [Nat.dvd_iff_mod_eq_zero] at hdiv
  unfold Main.iter
  rw [hM, e2, Prog.lift_ok_bind]
  dsimp only
  rw [hum, Prog.lift_ok_bind]
  by_cases hm : (k + 1) % P.t_step_save = 0
  · rw [if_pos hm] at hdiv
    have hidx : uadd s.save_indx 1 = (k + 1) / P.t_step_save := by
      rw [idx, hdiv]
      have : k / P.t_step_save ≤ k := Nat.div_le_self _ _
      exact uadd_of_lt (by unfold W; omega)
    have hle : (k + 1) / P.t_step_save ≤ k + 1 := Nat.div_le_self _ _
    obtain ⟨e'', rho', h5, h6, h7⟩ := save_eq (io := io) hS hH hD (J.sub 1) dir
      (s := { save_indx := uadd s.save_indx 1, e := e', f := f', p := p', rho := s.rho }) (k := k + 1)
      (by show uadd s.save_indx 1 < _; rw [hidx]; omega) of' name' f1 p1 rho hN
    dsimp only at h5
    rw [if_pos hm, if_pos hm, f2, p2, f1, hD.resS k, Prog.lift_ok_bind, hD.tv (k + 1), Prog.lift_ok_bind, h5]
    rw [Prog.emit_bind, Prog.bind_mk_ok]
    dsimp only
    rw [hfs, Prog.lift_ok_bind, hps, Prog.lift_ok_bind, Prog.pure_eq]
    refine ⟨{ save_indx := uadd s.save_indx 1, e := e'', f := { f' with n := f'.np1 }, p := { p' with n := p'.np1 }, rho := rho' }, ?_, ?_⟩
    · unfold saveEvents
      rw [hidx, List.append_nil]
      rfl
    · constructor
      · exact hidx
      · exact h6
      · exact ⟨okf'.2.2.1, okf'.2⟩
      · exact ⟨okp'.2.2.1, okp'.2⟩
      · exact f1
      · exact p1
      · exact name'
      · exact h7
  · rw [if_neg hm] at hdiv
    rw [if_neg hm, if_neg hm, Prog.pure_bind', hfs, Prog.lift_ok_bind, hps, Prog.lift_ok_bind, Prog.pure_eq]
    refine ⟨_, rfl, ?_⟩
    constructor
    · show s.save_indx = (k + 1) / _
      rw [idx, hdiv, Nat.add_zero]
    · exact of'
    · exact ⟨okf'.2.2.1, okf'.2⟩
    · exact ⟨okp'.2.2.1, okp'.2⟩
    · exact f1
    · exact p1
    · exact name'
    · exact rho

/-- the loop counter values at which something is saved -/
theorem flatMap_multiples {β : Type} (T : Nat → Nat → List β) {c : Nat} (hc : 1 ≤ c) (n : Nat) :
    ((List.range' 1 n).flatMap fun i => if i % c = 0 then T (i / c) i else [])
      = (List.range' 1 (n / c)).flatMap fun j => T j (j * c) := by
  induction n with
  | zero => simp
  | succ n ih =>
    rw [List.range'_concat, List.flatMap_append, ih, Nat.succ_div, List.flatMap_singleton]
    have : 1 + 1 * n = n + 1 := by omega
    rw [this]
    by_cases hm : (n + 1) % c = 0
    · have hd := Nat.dvd_of_mod_eq_zero hm
      have h1 : (n + 1) / c = n / c + 1 := by rw [Nat.succ_div, if_pos hd]
      rw [if_pos hm, if_pos hd, List.range'_concat, List.flatMap_append, List.flatMap_singleton, h1]
      have : (1 + 1 * (n / c)) = n / c + 1 := by omega
      rw [this, ← h1, Nat.div_mul_cancel hd]
    · rw [if_neg hm, if_neg (fun h => hm (Nat.mod_eq_zero_of_dvd h)), List.append_nil, Nat.add_zero]

/-- everything a run does before its loop -/
theorem run_prefix (hS : BuiltGrid E P g) {F Q A B D : Nat → List α} {tF tD : Nat → List (List Char)} {res tv : Nat → α}
    (hH : History P g M F Q A B) (hD : Derived P g io N F Q A B D tF tD res tv) (J : Junk (Cx α)) (dir : List Char) (hN0 : (J.sub 2).sub 0 = N 0) :
    ∃ s, LoopInv P g F Q 1 s ∧ Main.run E io J dir P = (⟨saveEvents io dir tF tD res tv (lit 0) 0 0, .ok s⟩ : Prog α (Main.Vars α)) >>= fun s =>
      (Prog.forRange 1 P.nt s fun itm s => Main.iter io P g ((J.sub 3).sub itm) dir itm s) >>= fun _ => pure () := by
  have hw := hS.wf
  have hlen := hH.len
  rw [← hS.total] at hlen
  have hN : umul (umul P.nx P.nlat) P.nphi = g.d.total := by
    have hf := hS.sizes.fits
    have hle : P.nx * P.nlat ≤ P.nx * P.nlat * P.nphi := Nat.le_mul_of_pos_right _ hS.sizes.nphi_pos
    rw [umul_of_lt (by omega : P.nx * P.nlat < W), umul_of_lt hf, hS.total]
  have hst := hH.start
  rw [← hS.total] at hst
  obtain ⟨e, he, hof⟩ := Eom.Of.existsB hS
  unfold Main.run
  dsimp only
  rw [hN, hS.grid, Prog.lift_ok_bind, he, Prog.lift_ok_bind]
  unfold Field.mk'
  dsimp only
  rw [hst, Prog.lift_ok_bind]
  dsimp only
  rw [hst, Prog.lift_ok_bind]
  dsimp only
  rw [hD.res0, Prog.lift_ok_bind, hD.tv 0, Prog.lift_ok_bind]
  obtain ⟨e', rho', h5, h6, h7⟩ := save_eq (io := io) hS hH hD (J.sub 2) dir
    (s := { save_indx := 0, e := e, f := { name := "f", size := g.d.total, n := F 0, l := List.replicate g.d.total (lit 0), np1 := F 0, k := List.replicate g.d.total (lit 0) }, p := { name := "p", size := g.d.total, n := Q 0, l := List.replicate g.d.total (lit 0), np1 := Q 0, k := List.replicate g.d.total (lit 0) }, rho := List.replicate g.d.total (lit 0) }) (k := 0)
      (show 0 < 2 ^ 31 by decide) hof rfl rfl rfl (by simp) hN0
  dsimp only at h5
  refine ⟨{ save_indx := 0, e := e', f := { name := "f", size := g.d.total, n := F 0, l := List.replicate g.d.total (lit 0), np1 := F 0, k := List.replicate g.d.total (lit 0) }, p := { name := "p", size := g.d.total, n := Q 0, l := List.replicate g.d.total (lit 0), np1 := Q 0, k := List.replicate g.d.total (lit 0) }, rho := rho' }, ?_, ?_⟩
  · constructor
    · simp
    · exact h6
    · exact ⟨(hlen 0).1, by simp, (hlen 0).1, by simp, rfl⟩
    · exact ⟨(hlen 0).2, by simp, (hlen 0).2, by simp, rfl⟩
    · rfl
    · rfl
    · rfl
    · exact h7
  · rw [Prog.emit_bind, h5, Prog.bind_mk_ok, Prog.bind_mk_ok]
    rfl

/-- the state after the loop -/
theorem loop_eq (hV : Valid E P) (hS : BuiltGrid E P g) {F Q A B D : Nat → List α} {tF tD : Nat → List (List Char)} {res tv : Nat → α}
    (hH : History P g M F Q A B) (hD : Derived P g io N F Q A B D tF tD res tv) (hts : 1 ≤ P.t_step_save) (J : Nat → Junk (Cx α))
    (dir : List Char) {s : Main.Vars α} (hI : LoopInv P g F Q 1 s) {n : Nat} (hn : n < P.nt) (hM : ∀ k, (J (k + 1)).sub 0 = M k)
    (hN : ∀ k, ((J (k + 1)).sub 1).sub 0 = N (k + 1)) :
    ∃ s', (Prog.forRange 1 (n + 1) s fun itm s => Main.iter io P g (J itm) dir itm s)
      = ⟨(List.range' 1 (n / P.t_step_save)).flatMap fun j =>
        saveEvents io dir tF tD res tv (P.dt * dbl (j * P.t_step_save)) j (j * P.t_step_save), .ok s'⟩ ∧ LoopInv P g F Q (n + 1) s' := by
  obtain ⟨s', h8, h9⟩ := Prog.forRange_inv (LoopInv P g F Q) _ (Nat.le_add_left 1 n) hI
      (fun itm s a b c => iter_eq (io := io) hV hS hH hD hts (J itm) dir a (by omega) c
        (by rw [← hM, Nat.sub_add_cancel a]) (by rw [← Nat.sub_add_cancel a, hN, Nat.sub_add_cancel a]))
  refine ⟨s', ?_, h9⟩
  rw [h8, flatMap_multiples (fun k i => saveEvents io dir tF tD res tv (P.dt * dbl i) k i) hts]
  rfl

/-- everything a run does -/
theorem run_eq (hV : Valid E P) (hS : BuiltGrid E P g) (J : Junk (Cx α)) {F Q A B D : Nat → List α} {tF tD : Nat → List (List Char)} {res tv : Nat → α}
    (hH : History P g (stepMem J) F Q A B) (hD : Derived P g io (saveMem J) F Q A B D tF tD res tv) (hts : 1 ≤ P.t_step_save)
    (dir : List Char) :
    Main.run E io J dir P = ⟨saveEvents io dir tF tD res tv (lit 0) 0 0 ++ (List.range' 1 ((P.nt - 1) / P.t_step_save)).flatMap fun j =>
      saveEvents io dir tF tD res tv (P.dt * dbl (j * P.t_step_save)) j (j * P.t_step_save), .ok ()⟩ := by
  obtain ⟨s, h1, h2⟩ := run_prefix hS hH hD J dir rfl
  rw [h2, Prog.bind_mk_ok]
  by_cases hnt : 1 ≤ P.nt
  · obtain ⟨s', h8, _⟩ := loop_eq (io := io) hV hS hH hD hts (fun itm => (J.sub 3).sub itm) dir h1 (n := P.nt - 1) (by omega) (fun _ => rfl) (fun _ => rfl)
    rw [Nat.sub_add_cancel hnt] at h8
    rw [h8, Prog.bind_mk_ok, Prog.pure_eq, List.append_nil]
  · have : P.nt = 0 := by omega
    rw [Prog.forRange_empty (by omega), Prog.bind_mk_ok, Prog.pure_eq, this]
    simp

/-- with a save interval of zero the first iteration is undefined -/
theorem run_zero (hS : BuiltGrid E P g) (J : Junk (Cx α)) {F Q A B D : Nat → List α} {tF tD : Nat → List (List Char)} {res tv : Nat → α}
    (hH : History P g (stepMem J) F Q A B) (hD : Derived P g io (saveMem J) F Q A B D tF tD res tv) (hts : P.t_step_save = 0) (hnt : 2 ≤ P.nt)
    (dir : List Char) :
    Main.run E io J dir P = ⟨saveEvents io dir tF tD res tv (lit 0) 0 0, .error .ub⟩ := by
  obtain ⟨s, h1, h2⟩ := run_prefix hS hH hD J dir rfl
  have sz : ∀ {f : Field α}, Eom.FieldOk f g.d.total → f.Sized (P.nx * P.nlat * P.nphi) := by
    intro f h
    rw [← hS.total]
    exact h
  obtain ⟨e', f', p', e2, _⟩ := hH.step 0 s.e s.f s.p h1.of (sz h1.okf) (sz h1.okp) h1.fn h1.pn
  have hit : Main.iter io P g ((J.sub 3).sub 1) dir 1 s = ⟨[], .error .ub⟩ := by
    unfold Main.iter
    rw [show ((J.sub 3).sub 1).sub 0 = stepMem J 0 from rfl, e2, Prog.lift_ok_bind]
    dsimp only
    unfold Main.umod
    rw [if_pos hts]
    rfl
  have hfor : (Prog.forRange 1 P.nt s fun itm s => Main.iter io P g ((J.sub 3).sub itm) dir itm s) = ⟨[], .error .ub⟩ := by
    unfold Prog.forRange
    obtain ⟨c, hc⟩ : ∃ c, P.nt - 1 = c + 1 := ⟨P.nt - 2, by omega⟩
    rw [hc]
    unfold Prog.forN
    beta_reduce
    rw [hit]
    rfl
  rw [h2, Prog.bind_mk_ok, hfor]
  show Prog.mk (_ ++ []) _ = _
  rw [List.append_nil]
  rfl

/-! ### orders close to the degrees: the memory does not matter -/

theorem History.mem (hS : Setup E P g) {F Q A B : Nat → List α} (hH : History P g M F Q A B) (M' : Nat → Junk (Cx α)) :
    History P g M' F Q A B := by
  refine ⟨hH.len, hH.start, hH.filtF, hH.filtQ, ?_⟩
  intro k e f p he hf hp hn hq
  obtain ⟨e', f', p', h1, h2⟩ := hH.step k e f p he hf hp hn hq
  rw [← hS.total] at hf hp
  exact ⟨e', f', p', (Eom.time_step_eq hS.wf (he.wf hS) (M' k) hf hp).trans
    ((Eom.time_step_eq hS.wf (he.wf hS) (M k) hf hp).symm.trans h1), h2⟩

theorem Derived.mem (hS : Setup E P g) {F Q A B D : Nat → List α} {tF tD : Nat → List (List Char)} {res tv : Nat → α}
    (hH : History P g M F Q A B) (hD : Derived P g io N F Q A B D tF tD res tv) (N' : Nat → Junk (Cx α)) :
    Derived P g io N' F Q A B D tF tD res tv := by
  refine ⟨?_, hD.tabF, hD.tabD, hD.res0, hD.resS, hD.tv⟩
  intro k e z he hz
  obtain ⟨e', h1⟩ := hD.dens k e z he hz
  have hl := hH.len k
  rw [← hS.total] at hz hl
  exact ⟨e', (Eom.set_rho_eq hS.wf (he.wf hS) (N' k) hl.1 hl.2 hz).trans
    ((Eom.set_rho_eq hS.wf (he.wf hS) (N k) hl.1 hl.2 hz).symm.trans h1)⟩

end
end SFK
