import Verif.Props.Run
/-
C72, C73: the combined Chebyshev/harmonic spectrum and the point files.
-/
namespace SFK
open Scalar

section
variable {α : Type} [Scalar α] {E : Env α} {P : ParamRec α} {g : Grid α} {io : IOEnv α}

/-- Distance of a stored point from the origin, as the code computes it. -/
def dist3 (c : P3 α) : α := rt (0 + pown c.x0 2 + pown c.x1 2 + pown c.x2 2)

/-- One line of a point file. -/
def xyzLine (io : IOEnv α) (c : P3 α) (x : α) : List Char :=
  io.fmt c.x0 ++ ",".toList ++ io.fmt c.x1 ++ ",".toList ++ io.fmt c.x2 ++ ",".toList ++ io.fmt x ++ "\n".toList

/-- **C73.** `write_x_y_z` appends to `<name>_XYZ_<itm>.csv` a header if wanted and then, in array order, one line for every grid point
selected by the bounds on the absolute value and on the distance from the origin, and for no other; `c i` are the Cartesian coordinates
stored for array position `i`. -/
theorem C73_point_file (hS : BuiltGrid E P g) {v : List α} (hv : v.length = P.nx * P.nlat * P.nphi) (name : List Char) (sc : Bool) (itm : Int)
    (vmin vmax rmin rmax : α) (hc : io.canOpen (name ++ "_XYZ_".toList ++ Text.toStr itm ++ ".csv".toList) = true) :
    ∃ c : Nat → P3 α, (∀ i, i < P.nx * P.nlat * P.nphi → rd g.x_y_z i = .ok (c i)) ∧
      Appends (Csv.write_x_y_z io g name sc itm vmin vmax rmin rmax v) (name ++ "_XYZ_".toList ++ Text.toStr itm ++ ".csv".toList)
        ((if sc then ["x,y,z,value\n".toList] else []) ++ (List.range (P.nx * P.nlat * P.nphi)).filterMap fun i =>
          if lt vmin (fabs (gv v i)) = true ∧ lt (fabs (gv v i)) vmax = true ∧ lt rmin (dist3 (c i)) = true ∧ lt (dist3 (c i)) rmax = true
          then some (xyzLine io (c i) (gv v i)) else none) := by
  have hw := hS.wf
  have hl : g.x_y_z.length = P.nx * P.nlat * P.nphi := by rw [hw.x_y_z, Dims.mk3_length, hS.total]
  refine ⟨gv g.x_y_z, fun i hi => rd_ok (by omega), ?_⟩
  unfold Csv.write_x_y_z
  dsimp only
  generalize name ++ "_XYZ_".toList ++ Text.toStr itm ++ ".csv".toList = file at *
  simp only [Csv.openApp, if_pos hc, Prog.emit_bind]
  have hloop := Prog.forRange_closed (α := α) (σ := Unit) (lo := 0) (hi := v.length) (b := fun i _ => do
      let x ← Prog.lift (rd v i)
      if lt vmin (fabs x) && lt (fabs x) vmax then do
        let c ← Prog.lift (rd g.x_y_z i)
        if lt rmin (Csv.magnitude c) && lt (Csv.magnitude c) rmax then
          Prog.emit (.append file (io.fmt c.x0 ++ ',' :: (io.fmt c.x1 ++ ',' :: (io.fmt c.x2 ++ ',' :: (io.fmt x ++ ['\n'])))))
        else pure ()
      else pure ()) (fun _ => ()) (fun i => ((if lt vmin (fabs (gv v i)) = true ∧ lt (fabs (gv v i)) vmax = true
        ∧ lt rmin (dist3 (gv g.x_y_z i)) = true ∧ lt (dist3 (gv g.x_y_z i)) rmax = true
          then some (xyzLine io (gv g.x_y_z i) (gv v i)) else none).toList).map (Event.append file)) (Nat.zero_le _) (by
      intro i _ hi
      rw [rd_ok hi, Prog.lift_ok_bind, rd_ok (by omega)]
      have hm : Csv.magnitude (gv g.x_y_z i) = dist3 (gv g.x_y_z i) := rfl
      by_cases a : lt vmin (fabs (gv v i)) = true <;> by_cases b : lt (fabs (gv v i)) vmax = true
      · rw [if_pos (by rw [a, b]; rfl), Prog.lift_ok_bind, hm]
        by_cases c : lt rmin (dist3 (gv g.x_y_z i)) = true <;> by_cases d : lt (dist3 (gv g.x_y_z i)) rmax = true
        · rw [if_pos (by rw [c, d]; rfl), if_pos ⟨a, b, c, d⟩]
          unfold xyzLine
          simp only [List.append_assoc]
          rfl
        all_goals
          rw [if_neg (by rw [Bool.and_eq_true]; exact fun h => by first | exact c h.1 | exact d h.2),
            if_neg (fun h => by first | exact c h.2.2.1 | exact d h.2.2.2)]
          rfl
      all_goals
        rw [if_neg (by rw [Bool.and_eq_true]; exact fun h => by first | exact a h.1 | exact b h.2),
          if_neg (fun h => by first | exact a h.1 | exact b h.2.1)]
        rfl)
  have hev : (List.range' 0 (v.length - 0)).flatMap (fun i => ((if lt vmin (fabs (gv v i)) = true ∧ lt (fabs (gv v i)) vmax = true
        ∧ lt rmin (dist3 (gv g.x_y_z i)) = true ∧ lt (dist3 (gv g.x_y_z i)) rmax = true
          then some (xyzLine io (gv g.x_y_z i) (gv v i)) else none).toList).map (Event.append (α := α) file))
      = ((List.range (P.nx * P.nlat * P.nphi)).filterMap fun i =>
          if lt vmin (fabs (gv v i)) = true ∧ lt (fabs (gv v i)) vmax = true ∧ lt rmin (dist3 (gv g.x_y_z i)) = true
            ∧ lt (dist3 (gv g.x_y_z i)) rmax = true
          then some (xyzLine io (gv g.x_y_z i) (gv v i)) else none).map (Event.append file) := by
    rw [Nat.sub_zero, ← List.range_eq_range', hv, List.filterMap_eq_flatMap_toList, List.map_flatMap]
  rw [hev] at hloop
  have hput : Csv.putHeader (α := α) file sc ["x", "y", "z", "value"]
      = ⟨(if sc then ["x,y,z,value\n".toList] else []).map (Event.append file), .ok ()⟩ := by
    cases sc
    · rfl
    · show Prog.mk [Event.append file (Csv.header _)] _ = _
      rw [if_pos rfl]
      rfl
  have key := replay_fileEvents (io := io) (ls := (if sc then ["x,y,z,value\n".toList] else []) ++ (List.range (P.nx * P.nlat * P.nphi)).filterMap fun i =>
          if lt vmin (fabs (gv v i)) = true ∧ lt (fabs (gv v i)) vmax = true ∧ lt rmin (dist3 (gv g.x_y_z i)) = true ∧ lt (dist3 (gv g.x_y_z i)) rmax = true
          then some (xyzLine io (gv g.x_y_z i) (gv v i)) else none) hc
  unfold fileEvents at key
  rw [if_pos hc, List.map_append] at key
  rw [hput, Prog.bind_mk_ok, hloop]
  exact ⟨rfl, key⟩

end

/-! ### C72 -/
open CR
variable {E : Env CR} {P : ParamRec CR} {g : Grid CR} {q : Phys} {x : ℕ → ℝ} {A : ℕ → ℕ → ℕ → ℝ}

theorem Dims.Ok.shellOf_ofShells {α : Type} [Inhabited α] {d : Dims} (h : d.Ok) {G : ℕ → List α} {ix : ℕ} (hx : ix < d.nx)
    (hl : (G ix).length = d.shell) : d.shellOf (d.ofShells G) ix = G ix := by
  rw [h.eq_mk2 hl]
  exact Dims.mk2_congr fun it ip a b => h.at3_mk3 ⟨hx, a, b⟩

theorem BuiltGrid.cheb (hS : BuiltGrid E P g) (hq : q.Is P) (hE : E.Exact P.nx P.nl P.nm P.nlat P.nphi x A) (hch : E.useCheb = true) :
    ∃ c, g.radial = .cheb c ∧ Built P.nx q.lo q.up (E.dct P.nx) c := by
  have hr := hS.radial
  unfold Grid.radialOf at hr
  rw [if_pos hch] at hr
  refine ⟨_, hr, built hS.sizes.two.1 hS.sizes.two.2 hE.fftw (nd := E.ndebug) ?_⟩
  rw [Cheb.mk'_eq, hq.lo, hq.up]

/-- **C72** (the part that holds).  If the power of `v` in degree `l` on shell `ix` is `s ix l`, then the value `set_n_l_coef` stores for
`(n,l)` is the `n`-th Chebyshev coefficient of the amplitude `sqrt (s · l)`: the polynomial with these coefficients has exactly the
value `sqrt (s ix l)` at every radial point.  Missing: the file shows its logarithm only if it is positive. -/
theorem C72_coefficients_partial (hS : BuiltGrid E P g) (hq : q.Is P) (hE : E.Exact P.nx P.nl P.nm P.nlat P.nphi x A)
    (hch : E.useCheb = true) (hlu : q.lo < q.up) {v : List CR} (hv : v.length = P.nx * P.nlat * P.nphi) {S : List CR} {s : ℕ → ℕ → ℝ}
    (hsp : ∀ J z, z.length = P.nx * P.nl → g.set_angular_power_spectrum J v z = .ok S)
    (hs : ∀ ix l, ix < P.nx → l < P.nl → gv S (ix * P.nl + l) = fin (s ix l) ∧ 0 ≤ s ix l) :
    ∃ (c : Cheb CR) (T : List CR) (a : ℕ → ℕ → ℝ), g.radial = .cheb c ∧
      (∀ J z, z.length = P.nx * P.nl → g.set_n_l_coef c J v z = .ok T) ∧
      (∀ n l, n < P.nx → l < P.nl → gv T (n * P.nl + l) = fin (a n l)) ∧
      (∀ ix l, ix < P.nx → l < P.nl → (chebPoly P.nx q.lo q.up fun n => a n l).eval (radPt E.useCheb P.nx q.lo q.up ix) = Real.sqrt (s ix l)) ∧
      ∀ n l, n < P.nx → l < P.nl →
        a n l = wN (P.nx - 1) n * redft00 (P.nx - 1) (fun ix => Real.sqrt (s ix l)) n / (2 * ((P.nx - 1 : ℕ) : ℝ)) := by
  have hw := hS.wf
  have hn := hS.sizes.two.1
  obtain ⟨c, hc, hb⟩ := hS.cheb hq hE hch
  have d1 : g.d.nx = P.nx := by rw [hS.dims]
  have d2 : g.d.nl = P.nl := by rw [hS.dims]
  rw [← hS.total] at hv
  have hS' : S = g.specP v := by
    have := (hw.spectrum_eq (fun _ _ => ⟨lit 0, lit 0⟩ : Junk (Cx CR)) hv (p := List.replicate (P.nx * P.nl) (lit 0))
      (by simp [d1, d2])).symm.trans (hsp _ _ (by simp))
    injection this with this
    exact this.symm
  refine ⟨c, g.nlP c v, fun n l => wN (P.nx - 1) n * redft00 (P.nx - 1) (fun ix => Real.sqrt (s ix l)) n / (2 * ((P.nx - 1 : ℕ) : ℝ)), hc,
    fun J z hz => set_n_l_coef_eq hw hc J hv (by rw [hz, d1, d2]), ?_, ?_, fun _ _ _ _ => rfl⟩
  · intro n l h1 h2
    have h3 := Dims.div_mod_lemma (i := n) h2
    rw [Nat.mul_comm P.nl n] at h3
    have h4 : n * P.nl + l < P.nx * P.nl := by
      have := Dims.mul_add_lt h1 h2
      rw [Nat.mul_comm P.nl n] at this
      exact this
    unfold Grid.nlP
    rw [d1, d2, gv_tab h4, h3.1, h3.2]
    have e : (tab P.nx fun ix => rt (gv (g.specP v) (ix * P.nl + l))) = tab P.nx fun ix => fin (Real.sqrt (s ix l)) := by
      apply tab_congr
      intro ix hx
      rw [← hS', (hs ix l hx h2).1, fin_rt _ (hs ix l hx h2).2]
    rw [e, toChP_fin hn hE.fftw hb, gv_tab h1]
  · intro ix l hx h2
    unfold radPt
    rw [if_pos hch, chebPoly_eval hn hlu]
    have h5 := series_of_dct (N := P.nx - 1) (by omega) (fun ix => Real.sqrt (s ix l)) (m := ix) (by omega)
    rw [show P.nx = P.nx - 1 + 1 by omega] at *
    rw [← h5]
    trivial

/-- **C72** (refuted).  A Chebyshev coefficient with a negative sign, however large, is written like a vanishing one.  In every Chebyshev
build with at least three radial points and one degree, for every size `K`, there is a field whose coefficient for `n=1`, `l=0` is `-K`
and whose file line for it shows -16. -/
theorem C72_negative_coefficient_lost (hS : BuiltGrid E P g) (hq : q.Is P) (hE : E.Exact P.nx P.nl P.nm P.nlat P.nphi x A)
    (hch : E.useCheb = true) (hlu : q.lo < q.up) (h3 : 3 ≤ P.nx) (h1 : 1 ≤ P.nl) {K : ℝ} (hK : 0 < K) :
    ∃ (c : Cheb CR) (v T : List CR), g.radial = .cheb c ∧ v.length = P.nx * P.nlat * P.nphi ∧
      (∀ J z, z.length = P.nx * P.nl → g.set_n_l_coef c J v z = .ok T) ∧ gv T (1 * P.nl + 0) = fin (-K) ∧
      Csv.logValue (gv T (1 * P.nl + 0)) = fin (-16) := by
  have hw := hS.wf
  have d1 : g.d.nx = P.nx := by rw [hS.dims]
  have d2 : g.d.nl = P.nl := by rw [hS.dims]
  have hm : g.sphere.sht.Math E.contig g.sphere.nlat g.sphere.nphi x A := by
    have := hE.math
    rw [← hS.sht] at this
    rw [hw.nlat, hw.nphi, hS.dims]
    exact this
  have hrt := hm.roundTrip hw.sph.api
  -- amplitude a on the innermost shell only
  set a : ℝ := K * ((P.nx - 1 : ℕ) : ℝ) with ha
  have hN : (0 : ℝ) < ((P.nx - 1 : ℕ) : ℝ) := by
    have : 0 < P.nx - 1 := by omega
    exact_mod_cast this
  have ha0 : 0 < a := mul_pos hK hN
  have hex : ∀ ix : ℕ, ∃ w, g.sphere.sht.Rep w (fun l m => if ix = P.nx - 1 ∧ l = 0 ∧ m = 0 then (a : ℂ) else 0) := fun ix =>
    exists_rep hw.sph _ (fun l => by split_ifs <;> simp)
  choose G hG using hex
  have hlen : ∀ ix, (G ix).length = g.d.shell := by
    intro ix
    rw [Rep.len hw.sph (hG ix), hw.nSph_eq]
  have hv : (g.d.ofShells G).length = P.nx * P.nlat * P.nphi := by rw [Dims.ofShells_length, hS.total]
  obtain ⟨c, T, b, e1, e2, e3, _, e5⟩ := C72_coefficients_partial hS hq hE hch hlu hv (S := g.specP (g.d.ofShells G))
    (s := fun ix l => if ix = P.nx - 1 ∧ l = 0 then a ^ 2 else 0)
    (fun J z hz => hw.spectrum_eq J (by rw [hv, hS.total]) (by rw [hz, d1, d2])) (by
      intro ix l hx hl
      refine ⟨?_, by beta_reduce; split_ifs <;> positivity⟩
      have hdm := Dims.div_mod_lemma (i := ix) hl
      rw [Nat.mul_comm P.nl ix] at hdm
      have h4 : ix * P.nl + l < P.nx * P.nl := by
        have := Dims.mul_add_lt hx hl
        rw [Nat.mul_comm P.nl ix] at this
        exact this
      unfold Grid.specP
      rw [d1, d2, gv_tab h4, hdm.1, hdm.2, hw.ok.shellOf_ofShells (by omega) (hlen ix)]
      have hml : g.sphere.lmax = P.nl := by rw [hw.lmax, d2]
      obtain ⟨w, f1, _, f2⟩ := C27_action hw.sph hrt (fun _ _ => ⟨lit 0, lit 0⟩ : Junk (Cx CR)) (hG ix)
        (p := List.replicate g.sphere.lmax (lit 0)) (by simp)
      have f1' := (hw.sph.power_spectrum_eq (fun _ _ => ⟨lit 0, lit 0⟩ : Junk (Cx CR)) (Rep.len hw.sph (hG ix))
        (p := List.replicate g.sphere.lmax (lit 0)) (by simp)).symm.trans f1
      injection f1' with f1
      rw [f1, f2 l (by omega)]
      unfold power
      have hz : ∑ m ∈ Finset.Icc 1 (min l (g.sphere.mmax - 1)), Complex.normSq (if ix = P.nx - 1 ∧ l = 0 ∧ m = 0 then (a : ℂ) else 0) = 0 :=
        Finset.sum_eq_zero fun m hm => by
          rw [Finset.mem_Icc] at hm
          rw [if_neg (by omega)]
          simp
      rw [hz]
      beta_reduce
      by_cases hc : ix = P.nx - 1 ∧ l = 0
      · rw [if_pos hc, if_pos ⟨hc.1, hc.2, rfl⟩, Complex.normSq_ofReal]
        congr 1
        ring
      · rw [if_neg hc, if_neg (fun h => hc ⟨h.1, h.2.1⟩)]
        simp)
  have hval : gv T (1 * P.nl + 0) = fin (-K) := by
    rw [e3 1 0 (by omega) (by omega), e5 1 0 (by omega) (by omega)]
    congr 1
    unfold redft00
    have hz : ∑ j ∈ Finset.Ico 1 (P.nx - 1), Real.sqrt (if j = P.nx - 1 ∧ 0 = 0 then a ^ 2 else 0) * Real.cos (Real.pi * j * ((1 : ℕ) : ℝ) / ((P.nx - 1 : ℕ) : ℝ)) = 0 :=
      Finset.sum_eq_zero fun j hj => by
        rw [Finset.mem_Ico] at hj
        rw [if_neg (by omega), Real.sqrt_zero, zero_mul]
    beta_reduce
    rw [hz, if_neg (by omega), if_pos ⟨rfl, rfl⟩, Real.sqrt_zero, Real.sqrt_sq ha0.le, wN, if_neg (by omega), ha]
    field_simp
    ring
  refine ⟨c, g.d.ofShells G, T, e1, hv, e2, hval, ?_⟩
  rw [hval]
  exact (C61_log_value (-K)).2.1 (lt_trans (neg_neg_of_pos hK) (by positivity))

/-- non-vacuity of C60 (all forms), C72 and C73: the concrete set-up in the Chebyshev build, every file writable. -/
example : ∃ (E : Env CR) (x : ℕ → ℝ) (A : ℕ → ℕ → ℕ → ℝ) (g : Grid CR) (io : IOEnv CR), E.useCheb = true ∧ Setup E demoP g ∧ demoQ.Is demoP ∧
    E.Exact demoP.nx demoP.nl demoP.nm demoP.nlat demoP.nphi x A ∧ demoQ.lo < demoQ.up ∧ 3 ≤ demoP.nx ∧ 1 ≤ demoP.nl ∧
    (∃ c, g.radial = .cheb c) ∧ ∀ p, io.canOpen p = true := by
  obtain ⟨E, x, A, g, e, _, _, h3, h4, h5, _, _⟩ := demo_setup false true true
  obtain ⟨c, hc, _⟩ := h5.cheb demo_is h4 h3
  refine ⟨E, x, A, g, ⟨fun _ => true, fun _ => []⟩, h3, h5, demo_is, h4, ?_, by decide, by decide, ⟨c, hc⟩, fun _ => rfl⟩
  simp only [demoQ, compR]; norm_num

end SFK
