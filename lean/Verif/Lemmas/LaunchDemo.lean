import Verif.Lemmas.LaunchRun
import Verif.Props.Launcher
/-
A concrete launch, to show that the hypotheses of C85, C86, C87 can be met: the template's settings on a 33×8×16 grid.
-/
namespace SFK
open Scalar CR Launcher

/-- The settings: the physics of runscript_template.py on a small grid. -/
noncomputable def demoS : Settings ℝ := { templateS with nx := 33, nl := 7, nm := 7, nlat := 8, nphi := 16 }

theorem demoS_sensible : demoS.Sensible := ⟨template_sensible.mass, template_sensible.spin, template_sensible.noRound, template_sensible.cl,
  template_sensible.time, template_sensible.cfl, by decide, by decide⟩

theorem demoS_step : demoS.step = 3 / 128 := by
  unfold Settings.step demoS templateS
  norm_num

theorem demoS_nt : (paramsOf demoS).nt = 25600 := by
  rw [demoS_sensible.nt, demoS_step]
  simp only [demoS, templateS]
  norm_num

/-- The numbers that are printed or read. -/
noncomputable def demoNums : List CR :=
  [(paramsOf demoS).dt, (paramsOf demoS).Rmin, (paramsOf demoS).rl, (paramsOf demoS).ru, fin demoS.mass, fin demoS.spin, fin demoS.cl,
    fin demoS.km1, fin demoS.k0, fin demoS.k1, fin demoS.k2, fin demoS.V2, fin demoS.V3, fin demoS.V4, fin demoS.amp]

open Classical in
/-- A number is printed as `f` and its place in the list. -/
noncomputable def demoFmt (x : CR) : List Char := 'f' :: Nat.toDigits 10 (demoNums.idxOf x)

/-- ... and read accordingly. -/
noncomputable def demoStod : List Char → Option CR
  | 'f' :: ds => demoNums[Nat.ofDigitChars 10 ds 0]?
  | _ => none

open Classical in
/-- The surroundings of the script. -/
noncomputable def demoV : PyEnv CR where
  fmt := demoFmt
  cplxText := "(1+2j)".toList
  isZero x := decide (x = fin 0)
  toInt x := .ok (intCR x : Int)
  home := "/u".toList
  month := "May".toList
  day := "5".toList
  clock := "12:34:56".toList

/-- The machine: the only build of the solver is `E`. -/
noncomputable def demoX (E : Env CR) : Machine CR where
  build _ := some E
  io := ⟨fun _ => true, fun _ => []⟩
  stod := demoStod
  junk := fun _ _ => ⟨fin 0, fin 0⟩
  stdout _ := []
  make _ w := w

/-- The files: the binary in Bin. -/
def demoW : World where
  files q := if q = "/u/Bin/default_fd.run".toList then some ['x'] else none
  dirs q := decide (q ∈ [[], "/u".toList, "/u/Bin".toList])
  exec q := decide (q = "/u/Bin/default_fd.run".toList)

/-- The object: the attributes of the settings, with this spin. -/
noncomputable def demoO (spin : CR) : Obj CR :=
  [("output_dir".toList, .str "/run1".toList), ("recompile".toList, .bool false), ("run_type".toList, .str "basic_run".toList),
    ("black_hole_mass".toList, .flt (fin demoS.mass)), ("black_hole_spin".toList, .flt spin),
    ("compactification_length".toList, .flt (fin demoS.cl)), ("evolve_time".toList, .flt (fin demoS.evolve_time)),
    ("num_saved_times".toList, .int demoS.num_saved_times), ("nx".toList, .int demoS.nx), ("nl".toList, .int demoS.nl),
    ("nm".toList, .int demoS.nm), ("nlat".toList, .int demoS.nlat), ("nphi".toList, .int demoS.nphi),
    ("use_cheb".toList, .bool demoS.use_cheb), ("cfl".toList, .flt (fin demoS.cfl)), ("bin_name".toList, .str "default_fd.run".toList),
    ("km1".toList, .flt (fin demoS.km1)), ("k0".toList, .flt (fin demoS.k0)), ("k1".toList, .flt (fin demoS.k1)),
    ("k2".toList, .flt (fin demoS.k2)), ("V2".toList, .flt (fin demoS.V2)), ("V3".toList, .flt (fin demoS.V3)),
    ("V4".toList, .flt (fin demoS.V4)), ("l_ang".toList, .int demoS.l_ang), ("m_ang".toList, .int demoS.m_ang),
    ("amp".toList, .flt (fin demoS.amp)), ("rl_0".toList, .flt (fin demoS.rl_0)), ("ru_0".toList, .flt (fin demoS.ru_0)),
    ("initial_data_type".toList, .str demoS.id), ("initial_data_direction".toList, .str demoS.direction),
    ("computer".toList, .str "home".toList), ("out_stem".toList, .str "/tigress".toList), ("time_it".toList, .bool true),
    ("num_omp_levels".toList, .int 1), ("num_threads".toList, .int 4), ("walltime".toList, .str "24:00:00".toList)]

theorem demo_reads {x : CR} (h : x ∈ demoNums) : Reads demoV demoStod (.flt x) x := by
  classical
  refine ⟨Or.inl rfl, by simp [PyEnv.str, demoV, demoFmt], ?_, ?_⟩
  · intro c hc
    simp only [PyEnv.str, demoV, demoFmt, List.mem_cons] at hc
    rcases hc with rfl | hc
    · decide
    · exact digit_white (toDigits_digit hc)
  · show demoStod (demoFmt x) = some x
    show demoNums[Nat.ofDigitChars 10 (Nat.toDigits 10 (demoNums.idxOf x)) 0]? = some x
    rw [Nat.ofDigitChars_toDigits (by decide) (by decide), List.getElem?_eq_getElem (List.idxOf_lt_length_of_mem h)]
    simp

theorem demo_cleanEnv : CleanEnv demoV := by
  refine ⟨fun x => ?_, by decide, by decide, by decide, by decide, by decide⟩
  show '\n' ∉ demoFmt x
  unfold demoFmt
  intro h
  rw [List.mem_cons] at h
  rcases h with h | h
  · exact absurd h (by decide)
  · exact absurd (toDigits_digit h) (by decide)

theorem demo_clean (spin : CR) : Clean demoV (demoO spin) := by
  have hf : ∀ x : CR, '\n' ∉ demoV.str (.flt x) := demo_cleanEnv.fmt
  have hi : ∀ n : Int, '\n' ∉ demoV.str (.int n) := fun n hn => absurd (toStr_white n _ hn) (by decide)
  refine ⟨?_, ?_, ?_⟩
  · have : ∀ n ∈ (demoO spin).map Prod.fst, ' ' ∉ n ∧ '\n' ∉ n := by
      unfold demoO
      simp only [List.map_cons, List.map_nil]
      decide
    exact fun a ha => this _ (List.mem_map_of_mem ha)
  · unfold demoO
    simp only [List.forall_mem_cons, List.not_mem_nil, false_imp_iff, implies_true, and_true]
    simp only [hf, hi, not_false_eq_true, true_and]
    refine ⟨?_, ?_, ?_, ?_, ?_, ?_, ?_, ?_, ?_, ?_, ?_⟩ <;> (show '\n' ∉ _; decide)
  · unfold demoO
    simp only [List.map_cons, List.map_nil]
    decide

theorem demo_describes : Describes demoV demoStod (demoO (fin demoS.spin)) (demoS.map fin) := by
  constructor
  · exact ⟨_, rfl, demo_reads (by simp [demoNums])⟩
  · exact ⟨_, rfl, demo_reads (by simp [demoNums])⟩
  · exact ⟨_, rfl, demo_reads (by simp [demoNums])⟩
  · exact ⟨_, rfl, demo_reads (by simp [demoNums])⟩
  · exact ⟨_, rfl, demo_reads (by simp [demoNums])⟩
  · exact ⟨_, rfl, demo_reads (by simp [demoNums])⟩
  · exact ⟨_, rfl, demo_reads (by simp [demoNums])⟩
  · exact ⟨_, rfl, demo_reads (by simp [demoNums])⟩
  · exact ⟨_, rfl, demo_reads (by simp [demoNums])⟩
  · exact ⟨_, rfl, demo_reads (by simp [demoNums])⟩
  · exact ⟨_, rfl, demo_reads (by simp [demoNums])⟩
  · exact ⟨_, rfl, Or.inl rfl⟩
  · exact ⟨_, rfl, Or.inl rfl⟩
  · exact ⟨_, rfl, Or.inl rfl⟩
  · exact fun _ => ⟨_, rfl, Or.inl rfl⟩
  all_goals first | rfl | exact ⟨by decide, by decide⟩

theorem demo_regular : Regular demoV demoStod intCR (demoS.map fin) := by
  have hs : Launcher.timeStep (demoS.map fin).use_cheb (demoS.map fin).cfl (demoS.map fin).nx (demoS.map fin).nlat (demoS.map fin).nphi
      = fin (3 / 128) := by
    rw [← demoS_step]
    exact demoS_sensible.timeStep
  have hz : ∀ x : ℝ, x ≠ 0 → demoV.isZero (fin x) = false := by
    intro x hx
    simp only [demoV, decide_eq_false_iff_not]
    exact fun h => hx (by injection h)
  constructor
  · show lt ((fin demoS.mass - fin demoS.spin) * (fin demoS.mass + fin demoS.spin)) 0 = false
    simp only [demoS, templateS, fin_sub, fin_add, fin_mul, fin_ofNat_zero, fin_lt_false]
    norm_num
  · exact hz _ (by simp [demoS, templateS])
  · show demoV.isZero (1 + Launcher.horizon (fin demoS.mass) (fin demoS.spin) / fin demoS.cl) = false
    have := demoS_sensible.horizon_pos
    have h2 := demoS_sensible.cl
    rw [demoS_sensible.horizon, fin_div _ _ h2.ne', fin_ofNat_one, fin_add]
    refine hz _ ?_
    positivity
  · decide
  · intro _
    show demoV.isZero (dbl 33 - 1) = false
    rw [fin_dbl, fin_ofNat_one, fin_sub]
    exact hz _ (by norm_num)
  · rw [hs]
    exact hz _ (by norm_num)
  · decide
  · rfl
  · intro x hx
    refine demo_reads ?_
    simp only [List.mem_cons, List.not_mem_nil, or_false] at hx
    rcases hx with rfl | rfl | rfl | rfl <;> simp [demoNums]
  · have h1 := demoS_nt
    intro n hn
    have h2 : (paramsOf demoS).t_step_save = 21 := by
      show tStepSave (paramsOf demoS).nt 1200 = 21
      rw [h1]
      decide
    simp only [List.mem_cons, List.not_mem_nil, or_false] at hn
    rcases hn with rfl | rfl | rfl | rfl | rfl | rfl | rfl
    · rw [h1]; norm_num
    · rw [h2]; norm_num
    all_goals decide
  · exact ⟨by decide, by decide⟩
  · exact ⟨by decide, by decide⟩

theorem split_at {d r p : List Char} (h : p = d ++ '/' :: r) : ∃ k, k < p.length ∧ p[k]? = some '/' ∧ d = p.take k := by
  subst h
  refine ⟨d.length, by simp, by simp, by simp⟩

theorem demo_tree : demoW.Tree := by
  have key : ∀ p ∈ [[], "/u".toList, "/u/Bin".toList, "/u/Bin/default_fd.run".toList], ∀ k < p.length, p[k]? = some '/' →
      demoW.dirs (p.take k) = true := by
    decide
  refine ⟨fun d r h => ?_, fun d r h => ?_⟩
  · simp only [demoW] at h
    split at h
    · rename_i e
      obtain ⟨k, h1, h2, h3⟩ := split_at e.symm
      rw [h3]
      exact key _ (by decide) k h1 h2
    · cases h
  · have h' := of_decide_eq_true h
    obtain ⟨k, h1, h2, h3⟩ := split_at (rfl : d ++ '/' :: r = _)
    rw [h3]
    refine key _ ?_ k h1 h2
    simp only [List.mem_cons] at h' ⊢
    tauto

theorem demo_plain : Plain "default_fd.run".toList := by
  refine ⟨by decide, ?_⟩
  decide

theorem demo_ready (E : Env CR) {o : Obj CR} {stem : List Char} (ho : o.get "output_dir" = .ok (.str stem))
    (hs : stem ∈ ["/run1".toList, "/u/Output/run1".toList])
    (hg : ∀ n ∈ ["computer", "recompile", "bin_name", "time_it", "num_omp_levels", "num_threads"], o.get n = (demoO (fin 0)).get n) :
    Ready demoV (demoX E) o demoW ("/u/Output".toList ++ stem) "default_fd.run".toList E := by
  have hc : o.get "computer" = .ok (.str "home".toList) := by rw [hg _ (by decide)]; rfl
  refine ⟨⟨stem, Or.inl ho, Or.inl ⟨hc, rfl⟩⟩, ⟨.bool false, by rw [hg _ (by decide)]; rfl, by rintro (h | h) <;> cases h⟩,
    by rw [hg _ (by decide)]; rfl, demo_plain, by decide, ⟨['x'], rfl, rfl⟩, ⟨.bool true, by rw [hg _ (by decide)]; rfl⟩,
    ⟨.int 1, by rw [hg _ (by decide)]; rfl⟩, ⟨.int 4, by rw [hg _ (by decide)]; rfl⟩, ?_, ?_⟩
  · have : ∀ stem ∈ ["/run1".toList, "/u/Output/run1".toList], demoW.dirs ("/u/Output".toList ++ stem) = false := by decide
    exact this _ hs
  · have key : ∀ p ∈ ["/u/Output".toList ++ "/run1".toList, "/u/Output".toList ++ "/u/Output/run1".toList],
        demoW.files p = none ∧ ∀ k < p.length, p[k]? = some '/' → demoW.files (p.take k) = none := by decide
    have hp : "/u/Output".toList ++ stem ∈ ["/u/Output".toList ++ "/run1".toList, "/u/Output".toList ++ "/u/Output/run1".toList] := by
      simp only [List.mem_cons, List.not_mem_nil, or_false] at hs ⊢
      rcases hs with rfl | rfl
      · exact Or.inl rfl
      · exact Or.inr rfl
    intro d hd
    rcases hd with rfl | ⟨r, hr⟩
    · exact (key _ hp).1
    · obtain ⟨k, h1, h2, h3⟩ := split_at hr
      rw [h3]
      exact (key _ hp).2 k h1 h2

theorem launchDemo_valid : ∃ E : Env CR, Valid E (paramsOf demoS) := by
  obtain ⟨E, x, A, g, e, _, _, h3, h4, hS, _⟩ := demo_setup true false false
  exact ⟨E, hS.sized, hS.sizes, le_refl 0, le_refl 0, by decide, by decide, by rw [demoS_nt]; norm_num⟩

end SFK
