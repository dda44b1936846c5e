import Verif.Spec.Omp
import Verif.Lemmas.OmpEom
import Verif.Lemmas.OmpReduce
import Verif.Lemmas.Run
/-
C33-C35: the OpenMP regions under every schedule.
-/
namespace SFK
open Scalar CR

section generic
variable {ι α : Type} [DecidableEq ι] [Scalar α] {E : Env α} {P : ParamRec α} {g : Grid α} {e : Eom α}

theorem everySchedule {t : Th ι α} {m mf : Mem ι α} (hr : t.RF) (h : t.run m = .ok mf) : EverySchedule t m mf := by
  obtain ⟨N, hN⟩ := schedule hr h
  exact ⟨N, fun c m' t' hs => ⟨(hN c m' t' hs).1, (hN c m' t' hs).2.1, (hN c m' t' hs).2.2.1, (hN c m' t' hs).2.2.2.1,
    (hN c m' t' hs).2.2.2.2.2⟩⟩

theorem everySchedule_simW {a : ι} {p : ThM ι α Unit} {F : Mem ι α → List α → Exec (List α)} (hr : RFM p) (h : SimW a p F) {m : Mem ι α}
    {w : List α} (hF : F m (m a) = .ok w) : EverySchedule p.toTh m (Function.update m a w) := by
  refine everySchedule (hr _ fun _ => trivial) ?_
  unfold ThM.toTh
  rw [h, hF]
  rfl

/-- C33 for the loops over shells (azimuthal derivative, spherical Laplacian, spherical gradient square): under every interleaving the
result array is the one the sequential loop produces, whatever the initial contents of the result array and of uninitialised
buffers, and no other vector changes.  For the gradient square with orders too far below the degrees (not `OrdersOk`) the values read
from uninitialised buffers enter the result: then the sequential loop is the one that sees the same memory. -/
theorem C33_shell_loops (hS : BuiltGrid E P g) {v dv : ι} (hne : v ≠ dv) (J J' : Junk (Cx α)) {m : Mem ι α}
    (hv : (m v).length = P.nx * P.nlat * P.nphi) (hd : (m dv).length = P.nx * P.nlat * P.nphi) :
    (∃ w, g.set_partial_phi J' (m v) (m dv) = .ok w ∧ EverySchedule (g.set_partial_phi_T J v dv).toTh m (Function.update m dv w)) ∧
    (∃ w, g.set_spherical_lap J' (m v) (m dv) = .ok w ∧ EverySchedule (g.set_spherical_lap_T J v dv).toTh m (Function.update m dv w)) ∧
    ((J = J' ∨ OrdersOk P.nl P.nm) → ∃ w, g.set_sphereX J' (m v) (m dv) = .ok w ∧ EverySchedule (g.set_sphereX_T J v dv).toTh m (Function.update m dv w)) := by
  have hw := hS.wf
  rw [← hS.total] at hv hd
  refine ⟨⟨_, hw.set_partial_phi_eq J' hv hd, everySchedule_simW (Grid.rf_perShell hw.ok hne) (Grid.simW_perShell hne _) (hw.set_partial_phi_eq J hv hd)⟩,
    ⟨_, hw.set_spherical_lap_eq J' hv hd, everySchedule_simW (Grid.rf_perShell hw.ok hne) (Grid.simW_perShell hne _) (hw.set_spherical_lap_eq J hv hd)⟩,
    fun hJ => ?_⟩
  have h0 := hw.set_sphereX_junk_eq J hv hd
  refine ⟨_, ?_, everySchedule_simW (Grid.rf_perShell hw.ok hne) (Grid.simW_perShell hne _) h0⟩
  rcases hJ with rfl | hO
  · exact h0
  · have hF := Setup.full ⟨hS, hO⟩
    rw [hw.set_sphereX_eq hF J' hv hd, ← hw.set_sphereX_eq hF J hv hd, h0]

/-- C33 for the loops over radial lines (the three radial derivatives). -/
theorem C33_line_loops (hS : BuiltGrid E P g) {v dv : ι} (hne : v ≠ dv) {m : Mem ι α}
    (hv : (m v).length = P.nx * P.nlat * P.nphi) (hd : (m dv).length = P.nx * P.nlat * P.nphi) :
    (∃ w, g.set_partial_R (m v) (m dv) = .ok w ∧ EverySchedule (g.set_partial_R_T v dv).toTh m (Function.update m dv w)) ∧
    (∃ w, g.set_partial_r (m v) (m dv) = .ok w ∧ EverySchedule (g.set_partial_r_T v dv).toTh m (Function.update m dv w)) ∧
    (∃ w, g.set_partial2_r (m v) (m dv) = .ok w ∧ EverySchedule (g.set_partial2_r_T v dv).toTh m (Function.update m dv w)) := by
  have hw := hS.wf
  rw [← hS.total] at hv hd
  exact ⟨⟨_, hw.set_partial_R_eq hv hd, everySchedule_simW (Grid.rf_perLine hw.ok hne) (Grid.simW_perLine hne _) (hw.set_partial_R_eq hv hd)⟩,
    ⟨_, hw.set_partial_r_eq hv hd, everySchedule_simW (Grid.rf_perLine hw.ok hne) (Grid.simW_perLine hne _) (hw.set_partial_r_eq hv hd)⟩,
    ⟨_, hw.set_partial2_r_eq hv hd, everySchedule_simW (Grid.rf_perLine hw.ok hne) (Grid.simW_perLine hne _) (hw.set_partial2_r_eq hv hd)⟩⟩

/-- C33 for the filter, which works in place: two parallel loops with a barrier between them. -/
theorem C33_filter (hS : BuiltGrid E P g) (v : ι) (J J' : Junk (Cx α)) {m : Mem ι α} (hv : (m v).length = P.nx * P.nlat * P.nphi) :
    ∃ w, g.filter J' (m v) = .ok w ∧ EverySchedule (g.filter_T J v).toTh m (Function.update m v w) := by
  have hw := hS.wf
  rw [← hS.total] at hv
  exact ⟨_, hw.filter_eq J' hv, everySchedule_simW (Grid.rf_filter hw.ok) (Grid.simW_filter v J) (hw.filter_eq J hv)⟩

/-- C33 for the two loops of the spectral diagnostics. -/
theorem C33_spectrum (hS : BuiltGrid E P g) {v p : ι} (hne : v ≠ p) (J J' : Junk (Cx α)) {m : Mem ι α}
    (hv : (m v).length = P.nx * P.nlat * P.nphi) (hp : (m p).length = P.nx * P.nl) :
    (∃ w, g.set_angular_power_spectrum J' (m v) (m p) = .ok w ∧
      EverySchedule (g.set_angular_power_spectrum_T J v p).toTh m (Function.update m p w)) ∧
    (∀ c, g.radial = .cheb c → ∃ w, g.set_n_l_coef c J' (m v) (m p) = .ok w ∧
      EverySchedule (g.set_n_l_coef_T c J v p).toTh m (Function.update m p w)) := by
  have hw := hS.wf
  rw [← hS.total] at hv
  rw [show P.nx * P.nl = g.d.nx * g.d.nl by rw [hS.dims]] at hp
  exact ⟨⟨_, hw.spectrum_eq J' hv hp, everySchedule_simW (Grid.rf_spectrum hw.ok hne) (Grid.simW_spectrum hne J) (hw.spectrum_eq J hv hp)⟩,
    fun c hc => ⟨_, set_n_l_coef_eq hw hc J' hv hp, everySchedule_simW (Grid.rf_n_l_coef hw.ok hne) (Grid.simW_n_l_coef hne c J)
      (set_n_l_coef_eq hw hc J hv hp)⟩⟩

/-- C33 for `Field::shift`. -/
theorem C33_shift {n np1 : ι} (hne : np1 ≠ n) {f f' : Field α} {m : Mem ι α} (hn : m n = f.n) (hp : m np1 = f.np1)
    (h : f.shift = .ok f') : EverySchedule (shift_T f.size n np1 : ThM ι α Unit).toTh m (Function.update m n f'.n) := by
  refine everySchedule_simW (rf_shift _) (simW_shift hne _) ?_
  unfold Field.shift at h
  rw [hn, hp]
  change (forRange 0 f.size f.n fun i n => rd f.np1 i >>= fun x => wr n i x) = _
  cases hc : (forRange 0 f.size f.n fun i n => rd f.np1 i >>= fun x => wr n i x) with
  | error e => rw [hc] at h; cases h
  | ok w => rw [hc, ok_bind] at h; injection h with h; rw [← h]

end generic

section eom
variable {α : Type} [Scalar α] {E : Env α} {P : ParamRec α} {g : Grid α} {e : Eom α}
open Arr Eom

/-- C33 for the loops of `set_level`, at every level the integrator uses: from the state that holds `f`, `p`, every interleaving ends
in the state that holds the `f'`, `p'` the sequential model computes. -/
theorem C33_set_level (hS : BuiltGrid E P g) (he : Eom.Of g P e) {level : Int} (hl : 1 ≤ level ∧ level ≤ 5) {f p : Field α}
    (hf : f.Sized (P.nx * P.nlat * P.nphi)) (hp : p.Sized (P.nx * P.nlat * P.nphi)) (s : Scratch α) (rh : List α) :
    ∃ f' p', e.set_level level f p = .ok (f', p') ∧ EverySchedule (e.set_level_T level).toTh (memOf s f p rh) (memOf s f' p' rh) := by
  rw [← hS.total] at hf hp
  have hw := he.wf0 hS
  have hr : ∀ l, (e.set_level_T l).toTh.RF := fun l => rf_level l _ fun _ => trivial
  have : level = 1 ∨ level = 2 ∨ level = 3 ∨ level = 4 ∨ level = 5 := by omega
  rcases this with rfl | rfl | rfl | rfl | rfl
  · exact ⟨_, _, set_level_1 hw hf hp, everySchedule (hr 1) (run_level_1 hw hf hp s rh _)⟩
  · exact ⟨_, _, set_level_2 hw hf hp, everySchedule (hr 2) (run_level_2 hw hf hp s rh _)⟩
  · exact ⟨_, _, set_level_3 hw hf hp, everySchedule (hr 3) (run_level_3 hw hf hp s rh _)⟩
  · exact ⟨_, _, set_level_4 hw hf hp, everySchedule (hr 4) (run_level_4 hw hf hp s rh _)⟩
  · exact ⟨_, _, set_level_5 hw hf hp, everySchedule (hr 5) (run_level_5 hw hf hp s rh _)⟩

/-- C34, right-hand side: the six concurrent sections of `set_k` (each of which contains parallel loops) leave, under every
interleaving, the work arrays the sequential model computes, and nothing else changes. -/
theorem C34_rhs_sections (hS : BuiltGrid E P g) (he : Eom.Of g P e) {J J' : Junk (Cx α)} (hJ : J = J' ∨ OrdersOk P.nl P.nm) {f p : Field α}
    (hf : f.Sized (P.nx * P.nlat * P.nphi)) (hp : p.Sized (P.nx * P.nlat * P.nphi)) (rh : List α) :
    ∃ s', e.sections g J' f.l p.l = .ok s' ∧ EverySchedule (sections_T g J fl pl).toTh (memOf e.scr f p rh) (memOf s' f p rh) := by
  rw [← hS.total] at hf hp
  have hw := he.wf0 hS
  have hE : e.sections g J' f.l p.l = .ok (scrJ g J f.l p.l) := by
    rcases hJ with rfl | hO
    · exact sections_junk_eq hS.wf hw J hf.2.1 hp.2.1
    · have hw' := he.wf ⟨hS, hO⟩
      rw [sections_eq hS.wf hw' J' hf.2.1 hp.2.1, ← sections_eq hS.wf hw' J hf.2.1 hp.2.1, sections_junk_eq hS.wf hw J hf.2.1 hp.2.1]
  exact ⟨_, hE, everySchedule (rf_sections hS.wf.ok J _ fun _ => trivial) (run_k_sections hS.wf J hf.2.1 hp.2.1 hw.scr rh _)⟩

/-- C34, right-hand side: the whole of `set_k`. -/
theorem C34_rhs (hS : BuiltGrid E P g) (he : Eom.Of g P e) {J J' : Junk (Cx α)} (hJ : J = J' ∨ OrdersOk P.nl P.nm) {f p : Field α}
    (hf : f.Sized (P.nx * P.nlat * P.nphi)) (hp : p.Sized (P.nx * P.nlat * P.nphi)) (rh : List α) :
    ∃ e' fk' pk', e.set_k g J' f.l p.l f.k p.k = .ok (e', fk', pk') ∧
      EverySchedule (e.set_k_T g J).toTh (memOf e.scr f p rh) (memOf e'.scr { f with k := fk' } { p with k := pk' } rh) := by
  rw [← hS.total] at hf hp
  have hw := he.wf0 hS
  have hE : e.set_k g J' f.l p.l f.k p.k = .ok ({ e with scr := scrJ g J f.l p.l }, p.l, e.rhsJ g J f.l p.l) := by
    have h0 := set_k_junk_eq hS.wf hw J hf.2.1 hp.2.1 hf.2.2.2.1 hp.2.2.2.1
    rcases hJ with rfl | hO
    · exact h0
    · have hw' := he.wf ⟨hS, hO⟩
      rw [set_k_eq hS.wf hw' J' hf.2.1 hp.2.1 hf.2.2.2.1 hp.2.2.2.1, ← set_k_eq hS.wf hw' J hf.2.1 hp.2.1 hf.2.2.2.1 hp.2.2.2.1, h0]
  exact ⟨_, _, _, hE, everySchedule (rf_set_k hS.wf.ok J _ fun _ => trivial)
    (run_k hS.wf hw J hf hp hw.scr rh _)⟩

/-- C34, energy density: the three concurrent sections of `set_rho` and the loop after them. -/
theorem C34_density (hS : BuiltGrid E P g) (he : Eom.Of g P e) {J J' : Junk (Cx α)} (hJ : J = J' ∨ OrdersOk P.nl P.nm) {f p : Field α}
    (hf : f.Sized (P.nx * P.nlat * P.nphi)) (hp : p.Sized (P.nx * P.nlat * P.nphi)) {rh : List α} (hr : rh.length = P.nx * P.nlat * P.nphi) :
    ∃ e' rh', e.set_rho g J' f.np1 p.np1 rh = .ok (e', rh') ∧
      EverySchedule (e.set_rho_T g J).toTh (memOf e.scr f p rh) (memOf e'.scr f p rh') := by
  rw [← hS.total] at hf hp hr
  have hw := he.wf0 hS
  have hE : e.set_rho g J' f.np1 p.np1 rh = .ok ({ e with scr := { e.scr with
      dr_f := g.prP f.np1, dphi_f := g.pphiP f.np1, sphereX_f := g.psphXJ (J.sub 1) f.np1 } }, e.rhoJ g J f.np1 p.np1) := by
    have h0 := set_rho_junk_eq hS.wf hw J hf.2.2.1 hp.2.2.1 hr
    rcases hJ with rfl | hO
    · exact h0
    · have hw' := he.wf ⟨hS, hO⟩
      rw [set_rho_eq hS.wf hw' J' hf.2.2.1 hp.2.2.1 hr, ← set_rho_eq hS.wf hw' J hf.2.2.1 hp.2.2.1 hr, h0]
  exact ⟨_, _, hE, everySchedule (rf_set_rho hS.wf.ok J _ fun _ => trivial)
    (run_rho hS.wf hw J hf hp hw.scr hr _)⟩

/-- C34, the two concurrent filters at the start of a step. -/
theorem C34_filters (hS : BuiltGrid E P g) (J0 J1 J0' J1' : Junk (Cx α)) {f p : Field α}
    (hf : f.Sized (P.nx * P.nlat * P.nphi)) (hp : p.Sized (P.nx * P.nlat * P.nphi)) (s : Scratch α) (rh : List α) :
    ∃ fn' pn', g.filter J0' f.n = .ok fn' ∧ g.filter J1' p.n = .ok pn' ∧
      EverySchedule (ThM.sections [g.filter_T J0 fn, g.filter_T J1 pn]).toTh (memOf s f p rh)
        (memOf s { f with n := fn' } { p with n := pn' } rh) := by
  rw [← hS.total] at hf hp
  have hw := hS.wf
  refine ⟨_, _, hw.filter_eq J0' hf.1, hw.filter_eq J1' hp.1, everySchedule (rf_filters hw.ok _ _ _ fun _ => trivial) ?_⟩
  unfold ThM.toTh
  rw [run_sections]
  simp only [List.foldlM_cons, List.foldlM_nil]
  have r1 := run_simW (Grid.simW_filter (g := g) fn J0) (m := memOf s f p rh) (w := g.filtP f.n) (hw.filter_eq J0 hf.1) (fun _ => .done)
  rw [up_fn] at r1
  have r2 := run_simW (Grid.simW_filter (g := g) pn J1) (m := memOf s { f with n := g.filtP f.n } p rh) (w := g.filtP p.n)
    (hw.filter_eq J1 hp.1) (fun _ => .done)
  rw [up_pn] at r2
  rw [r1, run_done, ok_bind, r2, run_done, ok_bind]
  rfl

/-- C33 and C34 together: a whole time step, with all its parallel regions, under every interleaving ends exactly in the state the
sequential model of `time_step` computes (fields and work arrays), never races and never faults. -/
theorem C34_time_step (hS : BuiltGrid E P g) (he : Eom.Of g P e) {J J' : Junk (Cx α)} (hJ : J = J' ∨ OrdersOk P.nl P.nm) {f p : Field α}
    (hf : f.Sized (P.nx * P.nlat * P.nphi)) (hp : p.Sized (P.nx * P.nlat * P.nphi)) (rh : List α) :
    ∃ e' f' p', e.time_step g J' f p = .ok (e', f', p') ∧
      EverySchedule (e.time_step_T g J f.size p.size).toTh (memOf e.scr f p rh) (memOf e'.scr f' p' rh) := by
  rw [← hS.total] at hf hp
  obtain ⟨e', f', p', h1, h2⟩ := run_time_step hS.wf (he.wf0 hS) J hf hp rh
  have hE : e.time_step g J' f p = e.time_step g J f p := by
    rcases hJ with rfl | hO
    · rfl
    · have hw' := he.wf ⟨hS, hO⟩
      rw [time_step_eq hS.wf hw' J' hf hp, time_step_eq hS.wf hw' J hf hp]
  exact ⟨e', f', p', hE.trans h1, everySchedule (rf_time_step hS.wf.ok J _ _ _ fun _ => trivial) h2⟩

end eom

section reduction
variable {E : Env CR} {P : ParamRec CR} {g : Grid CR}

theorem exists_comb : ∀ (l : List CR) (x : CR), ∃ y, Comb (x :: l) y := by
  intro l
  induction l with
  | nil => exact fun x => ⟨x, .one x⟩
  | cons z l ih => exact fun x => ⟨_, .add (l1 := [x]) (l2 := z :: l) (List.Perm.refl _) (.one x) (ih z).choose_spec⟩

/-- C35: for every distribution of the iterations over threads and every order and grouping in which the private sums are combined
with the initial 0, `norm_indep_res` returns what the sequential loop returns (in exact arithmetic). -/
theorem C35_residual_norm (hS : BuiltGrid E P g) (dt : CR) {a b p : List CR} (ha : a.length = P.nx * P.nlat * P.nphi)
    (hb : b.length = P.nx * P.nlat * P.nphi) (hp : p.length = P.nx * P.nlat * P.nphi) {ts : List (List Nat)}
    (ht : IsSchedule (P.nx * P.nlat * P.nphi) ts) :
    ∃ ps, g.norm_indep_res_privates dt a b p ts = .ok ps ∧ (∃ res, Comb (0 :: ps) res) ∧
      ∀ res, Comb (0 :: ps) res → g.norm_indep_res dt a b p = .ok (g.norm_indep_res_final res) := by
  have hw := hS.wf
  rw [← hS.total] at ha hb hp ht
  have hb' : ∀ i, i < g.d.total → ∀ s : CR, (do
      let x ← rd p i
      let y ← rd b i
      let z ← rd a i
      (.ok (s + pown (x - ((y - z) / dt)) 2) : Exec CR)) = .ok (s + pown (gv p i - (gv b i - gv a i) / dt) 2) := by
    intro i hi s
    rw [rd_ok (by omega), ok_bind, rd_ok (by omega), ok_bind, rd_ok (by omega), ok_bind]
  obtain ⟨ps, h1, h2⟩ := CRsum.privates_add hb' ht
  refine ⟨ps, ?_, ?_, ?_⟩
  · unfold Grid.norm_indep_res_privates
    rw [cassert_true _ _ (by simp [ha, hw.nTot_eq]), ok_bind, cassert_true _ _ (by simp [hb, hw.nTot_eq]), ok_bind,
      cassert_true _ _ (by simp [hp, hw.nTot_eq]), ok_bind]
    exact h1
  · exact exists_comb _ _
  · intro res hr
    rw [fin_ofNat_zero] at hr
    unfold Grid.norm_indep_res
    rw [cassert_true _ _ (by simp [ha, hw.nTot_eq]), ok_bind, cassert_true _ _ (by simp [hb, hw.nTot_eq]), ok_bind,
      cassert_true _ _ (by simp [hp, hw.nTot_eq]), ok_bind]
    have := CRsum.forRange_add hb' (fin 0)
    rw [← h2 res hr, CRsum.zero_add'] at this
    rw [hw.nTot_eq, fin_ofNat_zero, this, ok_bind]
    unfold Grid.norm_indep_res_final
    rw [hw.nTot_eq]

/-- C35 for the total variation, whose loop over shells is distributed. -/
theorem C35_total_variation (hS : BuiltGrid E P g) {v : List CR} (hv : v.length = P.nx * P.nlat * P.nphi) {ts : List (List Nat)}
    (ht : IsSchedule (P.nx - 1) ts) :
    ∃ ps, g.total_variation_privates v ts = .ok ps ∧ (∃ tv, Comb (0 :: ps) tv) ∧
      ∀ tv, Comb (0 :: ps) tv → g.total_variation v = .ok (g.total_variation_final tv) := by
  have hw := hS.wf
  have hd := hS.dims
  have n1 := hS.sizes.two
  have n2 := hS.sizes.nlat_pos
  have n3 := hS.sizes.nphi_pos
  have ht' := hS.total
  rw [← ht'] at hv
  have hlW : P.nlat < W := by
    have := hS.sizes.fits
    have : P.nlat ≤ P.nx * P.nlat * P.nphi := by
      calc P.nlat ≤ P.nx * P.nlat := Nat.le_mul_of_pos_left _ (by omega)
        _ ≤ _ := Nat.le_mul_of_pos_right _ n3
    omega
  have hpW : P.nphi < W := by
    have := hS.sizes.fits
    have : P.nphi ≤ P.nx * P.nlat * P.nphi := Nat.le_mul_of_pos_left _ (Nat.mul_pos (by omega) n2)
    omega
  have u1 : usub g.d.nx 1 = P.nx - 1 := by rw [hd]; exact usub_of_le n1.2 (Nat.le_trans (by decide) n1.1)
  have u2 : usub g.d.nlat 1 = P.nlat - 1 := by rw [hd]; exact usub_of_le hlW n2
  have u3 : usub g.d.nphi 1 = P.nphi - 1 := by rw [hd]; exact usub_of_le hpW n3
  let val (ix it ip : Nat) : CR := rt (pown (gv v (g.d.indx_R_th_ph (ix + 1) it ip) - gv v (g.d.indx_R_th_ph ix it ip)) 2
    + pown (gv v (g.d.indx_R_th_ph ix (it + 1) ip) - gv v (g.d.indx_R_th_ph ix it ip)) 2
    + pown (gv v (g.d.indx_R_th_ph ix it (ip + 1)) - gv v (g.d.indx_R_th_ph ix it ip)) 2)
  have h0 : ∀ ix it ip, ix + 1 < P.nx → it + 1 < P.nlat → ip + 1 < P.nphi → ∀ tv : CR, (do
      let c ← rd v (g.d.indx_R_th_ph ix it ip)
      let x ← rd v (g.d.indx_R_th_ph (ix + 1) it ip)
      let y ← rd v (g.d.indx_R_th_ph ix (it + 1) ip)
      let z ← rd v (g.d.indx_R_th_ph ix it (ip + 1))
      (.ok (tv + rt (pown (x - c) 2 + pown (y - c) 2 + pown (z - c) 2)) : Exec CR)) = .ok (tv + val ix it ip) := by
    intro ix it ip h1 h2 h3 tv
    have i0 := hw.ok.idx3_lt (hS.inR (show ix < P.nx by omega) (show it < P.nlat by omega) (show ip < P.nphi by omega))
    have i1 := hw.ok.idx3_lt (hS.inR (show ix + 1 < P.nx by omega) (show it < P.nlat by omega) (show ip < P.nphi by omega))
    have i2 := hw.ok.idx3_lt (hS.inR (show ix < P.nx by omega) (show it + 1 < P.nlat by omega) (show ip < P.nphi by omega))
    have i3 := hw.ok.idx3_lt (hS.inR (show ix < P.nx by omega) (show it < P.nlat by omega) (show ip + 1 < P.nphi by omega))
    rw [rd_ok (by omega), ok_bind, rd_ok (by omega), ok_bind, rd_ok (by omega), ok_bind, rd_ok (by omega), ok_bind]
  have h1 : ∀ ix, ix < P.nx - 1 → ∀ tv : CR, (forRange 0 (P.nlat - 1) tv fun it tv => forRange 0 (P.nphi - 1) tv fun ip tv => do
      let c ← rd v (g.d.indx_R_th_ph ix it ip)
      let x ← rd v (g.d.indx_R_th_ph (ix + 1) it ip)
      let y ← rd v (g.d.indx_R_th_ph ix (it + 1) ip)
      let z ← rd v (g.d.indx_R_th_ph ix it (ip + 1))
      (.ok (tv + rt (pown (x - c) 2 + pown (y - c) 2 + pown (z - c) 2)) : Exec CR)) =
        .ok (tv + CRsum.S ((List.range (P.nlat - 1)).map fun it => CRsum.S ((List.range (P.nphi - 1)).map fun ip => val ix it ip))) := by
    intro ix hx tv
    exact CRsum.forRange_add (fun it hit tv => CRsum.forRange_add (fun ip hip tv => h0 ix it ip (by omega) (by omega) (by omega) tv) tv) tv
  obtain ⟨ps, h2, h3⟩ := CRsum.privates_add h1 ht
  refine ⟨ps, ?_, exists_comb _ _, ?_⟩
  · unfold Grid.total_variation_privates
    rw [cassert_true _ _ (by simp [hv, hw.nTot_eq]), ok_bind, u2, u3]
    exact h2
  · intro tv hr
    rw [fin_ofNat_zero] at hr
    unfold Grid.total_variation
    rw [cassert_true _ _ (by simp [hv, hw.nTot_eq]), ok_bind, u1, u2, u3]
    have := CRsum.forRange_add h1 (fin 0)
    rw [← h3 tv hr, CRsum.zero_add'] at this
    rw [fin_ofNat_zero, this, ok_bind]
    unfold Grid.total_variation_final
    rw [hw.nTot_eq]

/-- Non-vacuity: the concrete set-up with its run-time objects, both fields and a two-thread schedule of the distributed loops. -/
example : ∃ (E : Env CR) (g : Grid CR) (e : Eom CR), Setup E demoP g ∧ Eom.Of g demoP e ∧
    (Field.mk' "f" (demoP.nx * demoP.nlat * demoP.nphi) (0 : CR)).Sized (demoP.nx * demoP.nlat * demoP.nphi) ∧
    (Arr.fl ≠ Arr.dr_f) ∧ IsSchedule 4 [[2, 0], [3, 1]] := by
  obtain ⟨E, x, A, g, e, _, _, _, _, h5, _, h7⟩ := demo_setup false true false
  exact ⟨E, g, e, h5, h7, ⟨by simp [Field.mk'], by simp [Field.mk'], by simp [Field.mk'], by simp [Field.mk'], rfl⟩, by decide, by
    unfold IsSchedule; decide⟩

/-- `EverySchedule` is not vacuous: two iterations that store to the same element race at once, and no final state is reached by
every schedule. -/
example (mf : Mem Unit Nat) : ¬ EverySchedule (ThM.parFor 2 fun j => ThM.store () 0 j : ThM Unit Nat Unit).toTh (fun _ => [7]) mf := by
  rintro ⟨N, h⟩
  exact (h 0 _ _ .refl).2.2.1 (.here (i := 0) (j := 1) (by omega) (by omega) (by omega) .store .store rfl)

/-- An accumulation into a shared element without a reduction clause has a reachable race. -/
example (mf : Mem Unit Nat) : ¬ EverySchedule (ThM.parFor 2 fun j => (do
    let x ← ThM.load () 0
    ThM.store () 0 (x + j)) : ThM Unit Nat Unit).toTh (fun _ => [7]) mf := by
  rintro ⟨N, h⟩
  have s : Step ((fun _ => [7]), (ThM.parFor 2 fun j => (do
    let x ← ThM.load () 0
    ThM.store () 0 (x + j)) : ThM Unit Nat Unit).toTh) _ := .child (j := 0) (by omega) (.load rfl)
  refine (h 1 _ _ (.tail .refl s)).2.2.1 (.here (i := 0) (j := 1) (a := ()) (p := 0) (w := true) (w' := false) (by omega) (by omega) (by omega) ?_ ?_ rfl)
  · rw [Function.update_self]; exact .store
  · rw [Function.update_of_ne (by omega)]; exact .load

end reduction
end SFK
