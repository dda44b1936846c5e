import Verif.Model.Echo
import Verif.Props.Params
/-
What the construction of the parameters leaves in the log.
-/
namespace SFK
open Text Params

/-- The statements of the constructor up to their results. -/
def scan {α : Type} (stod : List Char → Option α) (nd : Bool) (file : Option (List Char)) : List (String × Kind) → Exec Unit
  | [] => .ok ()
  | (n, k) :: rest => do
    (do let t ← read nd file n; check stod k t : Exec Unit)
    scan stod nd file rest

/-- Forget the result. -/
def void {β : Type} (a : Exec β) : Exec Unit := do let _ ← a; .ok ()

theorem scan_int {α β : Type} {stod : List Char → Option α} {nd : Bool} {file : Option (List Char)} {n : String}
    {rest : List (String × Kind)} {f : Int → Exec β} (h : ∀ x, void (f x) = scan stod nd file rest) :
    void (readInt nd file n >>= f) = scan stod nd file ((n, .int) :: rest) := by
  unfold readInt scan check
  cases read nd file n with
  | error e => rfl
  | ok t =>
    rw [ok_bind, ok_bind]
    dsimp only
    cases stoi t with
    | error e => rfl
    | ok x => exact h x

theorem scan_dbl {α β : Type} {stod : List Char → Option α} {nd : Bool} {file : Option (List Char)} {n : String}
    {rest : List (String × Kind)} {f : α → Exec β} (h : ∀ x, void (f x) = scan stod nd file rest) :
    void (readDbl stod nd file n >>= f) = scan stod nd file ((n, .dbl) :: rest) := by
  unfold readDbl scan check
  cases read nd file n with
  | error e => rfl
  | ok t =>
    rw [ok_bind, ok_bind]
    dsimp only
    cases stod t with
    | none => rfl
    | some x => exact h x

theorem scan_str {α β : Type} {stod : List Char → Option α} {nd : Bool} {file : Option (List Char)} {n : String}
    {rest : List (String × Kind)} {f : List Char → Exec β} (h : ∀ x, void (f x) = scan stod nd file rest) :
    void (read nd file n >>= f) = scan stod nd file ((n, .str) :: rest) := by
  unfold scan check
  cases read nd file n with
  | error e => rfl
  | ok t => exact h t

theorem ctor_scan {α : Type} (stod : List Char → Option α) (nd : Bool) (file : Option (List Char)) :
    void (ctor stod nd file) = scan stod nd file order := by
  unfold ctor order
  exact scan_int fun _ => scan_int fun _ => scan_int fun _ => scan_int fun _ => scan_int fun _ => scan_int fun _ => scan_int fun _ =>
    scan_dbl fun _ => scan_dbl fun _ => scan_dbl fun _ => scan_dbl fun _ => scan_dbl fun _ => scan_dbl fun _ => scan_dbl fun _ =>
    scan_dbl fun _ => scan_dbl fun _ => scan_dbl fun _ => scan_dbl fun _ => scan_dbl fun _ => scan_dbl fun _ => scan_str fun _ =>
    scan_str fun _ => scan_dbl fun _ => scan_dbl fun _ => scan_dbl fun _ => scan_int fun _ => scan_int fun _ => rfl

theorem void_ok {β : Type} {a : Exec β} {x : β} (h : a = .ok x) : void a = .ok () := by subst h; rfl
theorem void_error {β : Type} {a : Exec β} {e : Err} (h : a = .error e) : void a = .error e := by subst h; rfl

/-- The lines for the given names and values. -/
def recordLines (val : String → List Char) (names : List String) : List Char :=
  names.flatMap fun n => n.toList ++ '\t' :: val n ++ ['\n']

theorem printsFrom_ok {α : Type} {stod : List Char → Option α} {nd : Bool} {file : Option (List Char)} {val : String → List Char}
    (l : List (String × Kind)) (hv : ∀ a ∈ l, read nd file a.1 = .ok (val a.1)) (h : scan stod nd file l = .ok ()) :
    printsFrom stod nd file l = recordLines val (l.map Prod.fst) ++ "Finished initializing Params\n".toList := by
  induction l with
  | nil => rfl
  | cons a l ih =>
    obtain ⟨n, k⟩ := a
    have h1 := hv (n, k) List.mem_cons_self
    dsimp only at h1
    unfold scan at h
    unfold printsFrom readPrints
    obtain ⟨u, e, h2⟩ := bind_ok_inv h
    rw [e, h1]
    dsimp only
    rw [ih (fun a ha => hv a (List.mem_cons_of_mem _ ha)) h2]
    simp [recordLines, List.append_assoc]

/-- Where the constructor stops: the parameters before, the one it stops at. -/
theorem printsFrom_error {α : Type} {stod : List Char → Option α} {nd : Bool} {file : Option (List Char)} {e : Err}
    (l : List (String × Kind)) (h : scan stod nd file l = .error e) :
    ∃ pre n k post, l = pre ++ (n, k) :: post ∧ scan stod nd file pre = .ok () ∧
      (do let t ← read nd file n; check stod k t : Exec Unit) = .error e ∧
      ∃ s, printsFrom stod nd file l = s ++ readPrints nd file n ∧
        ∀ val : String → List Char, (∀ a ∈ pre, read nd file a.1 = .ok (val a.1)) → s = recordLines val (pre.map Prod.fst) := by
  induction l with
  | nil => cases h
  | cons a l ih =>
    obtain ⟨n, k⟩ := a
    unfold scan at h
    unfold printsFrom
    cases e1 : (do let t ← read nd file n; check stod k t : Exec Unit) with
    | error e' =>
      rw [e1] at h
      cases h
      exact ⟨[], n, k, l, rfl, rfl, e1, [], by simp, fun _ _ => rfl⟩
    | ok u =>
      rw [e1, ok_bind] at h
      obtain ⟨pre, n', k', post, h1, h2, h3, s, h4, h5⟩ := ih h
      refine ⟨(n, k) :: pre, n', k', post, by rw [h1]; rfl, ?_, h3, readPrints nd file n ++ s, ?_, ?_⟩
      · unfold scan
        rw [e1, ok_bind, h2]
      · dsimp only
        rw [h4, List.append_assoc]
      · intro val hval
        rw [h5 val fun a ha => hval a (List.mem_cons_of_mem _ ha)]
        have := hval (n, k) List.mem_cons_self
        dsimp only at this
        simp only [readPrints, this, recordLines, List.map_cons, List.flatMap_cons]

/-- The names of the 27 parameters in the order of the log. -/
def logOrder : List String :=
  ["nt", "nx", "nl", "nm", "nlat", "nphi", "t_step_save", "dt", "compactification_length", "Rmax", "Rmin", "black_hole_mass",
   "black_hole_spin", "km1", "k0", "k1", "k2", "V2", "V3", "V4", "initial_data_type", "initial_data_direction", "amp", "rl", "ru",
   "l_ang", "m_ang"]

theorem order_names : order.map Prod.fst = logOrder := rfl

theorem order_required {a : String × Kind} (ha : a ∈ order) : a.1 ∈ required := by
  have key : ∀ n ∈ logOrder, n ∈ required := by decide
  exact key _ (order_names ▸ List.mem_map_of_mem ha)

theorem required_order {n : String} (hn : n ∈ required) : n ∈ logOrder := by
  have key : ∀ n ∈ required, n ∈ logOrder := by decide
  exact key n hn

theorem order_int : ∀ a ∈ order, a.2 = .int → a.1 ∈ intParams := by decide
theorem order_dbl : ∀ a ∈ order, a.2 = .dbl → a.1 ∈ dblParams := by decide

/-- **C120.** If the parameters are read, the log has, between two banners, one line for each of the 27 parameters, in a fixed order:
its name, a tab, and the value text the file gives to it, which are the texts the record was made from. -/
theorem C120_record {α : Type} {stod : List Char → Option α} {nd : Bool} {text : List Char} {ls : List (List Char)}
    {P : ParamRec α} (h : FileLines text ls) (hP : ctor stod nd (some text) = .ok P) :
    ∃ val : String → List Char, (∀ n ∈ required, ValueIn ls n.toList (val n)) ∧ ParamsFrom stod (fun n => some (val n)) P ∧
      prints stod nd (some text) = "Initializing Params\n".toList ++
        (logOrder.flatMap fun n => n.toList ++ '\t' :: val n ++ ['\n']) ++ "Finished initializing Params\n".toList := by
  have hr : ∀ n ∈ required, read nd (some text) n = .ok ((valOf nd (some text) n).getD []) := by
    intro n hn
    obtain ⟨v, hv⟩ := ctor_found hP hn
    rw [valOf_some.mpr hv, hv]; rfl
  refine ⟨fun n => (valOf nd (some text) n).getD [], ?_, ?_, ?_⟩
  · intro n hn
    exact (C56_lookup h (required_nosp n hn)).mp (hr n hn)
  · rw [paramsFrom_congr (val' := valOf nd (some text))]
    · exact ctor_from.mp hP
    · intro n hn
      obtain ⟨v, hv⟩ := ctor_found hP hn
      dsimp only
      rw [valOf_some.mpr hv]; rfl
  · unfold prints
    rw [printsFrom_ok (val := fun n => (valOf nd (some text) n).getD []) order
      (fun a ha => hr a.1 (order_required ha)) (by rw [← ctor_scan, void_ok hP]), order_names, List.append_assoc]
    rfl

theorem firstToken_plain {s v : List Char} (h : FirstToken s v) : '\n' ∉ v := by
  obtain ⟨ws, tail, -, -, h1, -⟩ := h
  intro h2
  exact absurd (h1 _ h2) (by decide)

theorem valueIn_plain {ls : List (List Char)} {n v : List Char} (h : ValueIn ls n v) : '\n' ∉ v := by
  obtain ⟨pre, l, post, -, -, ⟨-, rfl⟩ | ⟨rest, -, h2⟩⟩ := h
  · simp
  · exact firstToken_plain h2

theorem split_newline {a b s t : List Char} (ha : '\n' ∉ a) (hb : '\n' ∉ b) (h : a ++ '\n' :: s = b ++ '\n' :: t) : a = b ∧ s = t := by
  have h1 := takeWhile_split (r := s) ha
  have h2 := takeWhile_split (r := t) hb
  rw [h] at h1
  have e : a = b := h1.1.symm.trans h2.1
  subst e
  exact ⟨rfl, by simpa using h⟩

theorem recordLines_inj {val val' : String → List Char} (names : List String) (h : ∀ n ∈ names, '\n' ∉ val n)
    (h' : ∀ n ∈ names, '\n' ∉ val' n) {s t : List Char}
    (e : recordLines val names ++ s = recordLines val' names ++ t) : ∀ n ∈ names, val n = val' n := by
  induction names with
  | nil => intro n hn; cases hn
  | cons a l ih =>
    unfold recordLines at e
    rw [List.flatMap_cons, List.flatMap_cons] at e
    simp only [List.append_assoc, List.cons_append, List.nil_append] at e
    have e1 := List.append_cancel_left e
    injection e1 with _ e1
    obtain ⟨e2, e3⟩ := split_newline (h a List.mem_cons_self) (h' a List.mem_cons_self) e1
    intro n hn
    rcases List.mem_cons.mp hn with rfl | hn
    · exact e2
    · exact ih (fun n hn => h n (List.mem_cons_of_mem _ hn)) (fun n hn => h' n (List.mem_cons_of_mem _ hn))
        (by unfold recordLines; simpa only [List.append_assoc, List.cons_append, List.nil_append] using e3) n hn

theorem paramsFrom_unique {α : Type} {stod : List Char → Option α} {nd : Bool} {file file' : Option (List Char)} {P P' : ParamRec α}
    (h : ctor stod nd file = .ok P) (h' : ctor stod nd file' = .ok P') (e : ∀ n ∈ required, valOf nd file n = valOf nd file' n) :
    P = P' := by
  rw [ctor_from, paramsFrom_congr e, ← ctor_from, h'] at h
  injection h with h
  exact h.symm

/-- **C120.** The log determines the parameters: two runs whose parameters were read and whose logs are the same up to that point have
the same parameters, whatever files they were read from. -/
theorem C120_log_determines_parameters {α : Type} {stod : List Char → Option α} {nd : Bool} {text text' : List Char} {P P' : ParamRec α}
    (h : ctor stod nd (some text) = .ok P) (h' : ctor stod nd (some text') = .ok P') {s s' : List Char}
    (e : prints stod nd (some text) ++ s = prints stod nd (some text') ++ s') : P = P' := by
  obtain ⟨ls, hl⟩ := exists_fileLines text
  obtain ⟨ls', hl'⟩ := exists_fileLines text'
  obtain ⟨val, v1, -, v3⟩ := C120_record hl h
  obtain ⟨val', w1, -, w3⟩ := C120_record hl' h'
  rw [v3, w3] at e
  simp only [List.append_assoc] at e
  have e1 := List.append_cancel_left e
  have sub : ∀ n ∈ logOrder, n ∈ required := by
    intro n hn
    rw [← order_names] at hn
    obtain ⟨a, ha, rfl⟩ := List.mem_map.mp hn
    exact order_required ha
  have e2 := recordLines_inj logOrder (fun n hn => valueIn_plain (v1 n (sub n hn))) (fun n hn => valueIn_plain (w1 n (sub n hn)))
    (s := "Finished initializing Params\n".toList ++ s) (t := "Finished initializing Params\n".toList ++ s')
    (by unfold recordLines; simpa only [List.append_assoc] using e1)
  apply paramsFrom_unique h h'
  intro n hn
  rw [valOf_some.mpr ((C56_lookup hl (required_nosp n hn)).mpr (v1 n hn)),
    valOf_some.mpr ((C56_lookup hl' (required_nosp n hn)).mpr (w1 n hn)), e2 n (required_order hn)]

/-- **C120.** The lines of the log, written with a space instead of the tab, are a parameter file with which the run can be repeated:
they give the same parameters. -/
theorem C120_rerun_from_log {α : Type} {stod : List Char → Option α} {nd : Bool} {text : List Char} {ls : List (List Char)}
    {P : ParamRec α} (h : FileLines text ls) (hP : ctor stod nd (some text) = .ok P) {val : String → List Char}
    (hv : ∀ n ∈ required, ValueIn ls n.toList (val n)) :
    ctor stod nd (some (logOrder.flatMap fun n => n.toList ++ ' ' :: val n ++ ['\n'])) = .ok P := by
  have sub : ∀ n ∈ logOrder, n ∈ required := by
    intro n hn
    rw [← order_names] at hn
    obtain ⟨a, ha, rfl⟩ := List.mem_map.mp hn
    exact order_required ha
  have ef : (logOrder.flatMap fun n => n.toList ++ ' ' :: val n ++ ['\n'])
      = Launcher.write_sim_params (logOrder.map fun n => (n.toList, .scalar (val n))) := by
    unfold Launcher.write_sim_params
    rw [List.flatMap_map]
    rfl
  rw [ef]
  have good : GoodAttrs (logOrder.map fun n => (n.toList, Launcher.PyVal.scalar (val n))) := by
    refine ⟨?_, ?_, ?_⟩
    · intro a ha
      obtain ⟨n, hn, rfl⟩ := List.mem_map.mp ha
      have : ∀ n ∈ logOrder, ' ' ∉ n.toList ∧ '\n' ∉ n.toList := by decide
      exact this n hn
    · intro a ha t ht
      obtain ⟨n, hn, rfl⟩ := List.mem_map.mp ha
      simp only [texts, List.mem_cons, List.not_mem_nil, or_false] at ht
      subst ht
      exact valueIn_plain (hv n (sub n hn))
    · have e : (logOrder.map fun n => (n.toList, Launcher.PyVal.scalar (val n))).map Prod.fst = logOrder.map String.toList := by
        rw [List.map_map]
        rfl
      rw [e]
      decide
  have hr : ∀ n ∈ required, read nd (some (Launcher.write_sim_params (logOrder.map fun n => (n.toList, .scalar (val n))))) n
      = .ok (val n) := by
    intro n hn
    apply roundtrip_aux good (val := .scalar (val n)) (List.mem_map.mpr ⟨n, required_order hn, rfl⟩)
    refine ⟨val n, rfl, [], [], by simp, by simp, ?_, Or.inl rfl, fun _ => rfl⟩
    obtain ⟨pre, l, post, -, -, ⟨-, e⟩ | ⟨rest, -, ws, tail, -, -, h1, -⟩⟩ := hv n hn
    · rw [e]; simp
    · exact h1
  rw [ctor_from] at hP ⊢
  rw [← paramsFrom_congr (val := valOf nd (some text))]
  · exact hP
  · intro n hn
    rw [valOf_some.mpr ((C56_lookup h (required_nosp n hn)).mpr (hv n hn)), valOf_some.mpr (hr n hn)]

/-- **C120.** If a parameter is missing, so that the process exits, the last line of the log names a required parameter which the file
has no line about, and before it are the lines of parameters that were found. -/
theorem C120_missing_is_named {α : Type} {stod : List Char → Option α} {nd : Bool} {text : List Char} {ls : List (List Char)}
    (h : FileLines text ls) {c : Nat} (hP : ctor stod nd (some text) = .error (.exit c)) :
    ∃ pre n post, logOrder = pre ++ n :: post ∧ (∀ l ∈ ls, ¬ Named n.toList l) ∧
      ∃ val : String → List Char, (∀ m ∈ pre, ValueIn ls m.toList (val m)) ∧
        prints stod nd (some text) = "Initializing Params\n".toList ++ (pre.flatMap fun m => m.toList ++ '\t' :: val m ++ ['\n']) ++
          "ERROR: did not find ".toList ++ n.toList ++ ['\n'] := by
  obtain ⟨pre, n, k, post, h1, h2, h3, s, h4, h5⟩ := printsFrom_error order (by rw [← ctor_scan, void_error hP])
  have hn : n ∈ required := order_required (a := (n, k)) (by rw [h1]; simp)
  have hread : read nd (some text) n = .error (.exit 0) := by
    cases e : read nd (some text) n with
    | error e' => rw [read_error e]
    | ok t =>
      rw [e, ok_bind] at h3
      exfalso
      cases k with
      | int =>
        unfold check at h3
        dsimp only at h3
        rcases intText_or t with ⟨j, hj⟩ | hj
        · rw [stoi_text hj] at h3
          split at h3 <;> cases h3
        · rw [hj] at h3; cases h3
      | dbl =>
        unfold check at h3
        dsimp only at h3
        cases hs : stod t <;> rw [hs] at h3 <;> cases h3
      | str => cases h3
  have hpre : ∀ a ∈ pre, read nd (some text) a.1 = .ok ((valOf nd (some text) a.1).getD []) := by
    clear h1 h4 h5 h3
    induction pre with
    | nil => intro a ha; cases ha
    | cons b l ih =>
      obtain ⟨m, j⟩ := b
      unfold scan at h2
      obtain ⟨u, e1, h2⟩ := bind_ok_inv h2
      obtain ⟨t, e2, -⟩ := bind_ok_inv e1
      intro a ha
      rcases List.mem_cons.mp ha with rfl | ha
      · dsimp only
        rw [valOf_some.mpr e2, e2]; rfl
      · exact ih h2 a ha
  refine ⟨pre.map Prod.fst, n, post.map Prod.fst, by rw [← order_names, h1]; simp, (C56_absent h (required_nosp n hn)).mp hread,
    fun m => (valOf nd (some text) m).getD [], ?_, ?_⟩
  · intro m hm
    obtain ⟨a, ha, rfl⟩ := List.mem_map.mp hm
    exact (C56_lookup h (required_nosp _ (order_required (by rw [h1]; exact List.mem_append_left _ ha)))).mp (hpre a ha)
  · unfold prints
    rw [h4, h5 (fun m => (valOf nd (some text) m).getD []) hpre]
    unfold readPrints
    rw [hread]
    simp only [recordLines, List.append_assoc]

/-- **C120.** If an exception reports a malformed number, the last line of the log is the name of the parameter, a tab and the offending
text, which is the value the file gives to it. -/
theorem C120_malformed_is_shown {α : Type} {stod : List Char → Option α} {nd : Bool} {text : List Char} {ls : List (List Char)}
    (h : FileLines text ls) (hP : ctor stod nd (some text) = .error .exc) :
    ∃ n v s, ValueIn ls n.toList v ∧ prints stod nd (some text) = s ++ '\n' :: n.toList ++ '\t' :: v ++ ['\n'] ∧
      (n ∈ intParams ∧ (¬ ∃ j, IntText v j ∧ IsInt j) ∨ n ∈ dblParams ∧ stod v = none) := by
  obtain ⟨pre, n, k, post, h1, h2, h3, s, h4, h5⟩ := printsFrom_error order (by rw [← ctor_scan, void_error hP])
  have hmem : (n, k) ∈ order := by rw [h1]; simp
  have hn : n ∈ required := order_required hmem
  cases e : read nd (some text) n with
  | error e' => rw [e, read_error e] at h3; cases h3
  | ok t =>
    rw [e, ok_bind] at h3
    have hline : ∃ s', prints stod nd (some text) = s' ++ '\n' :: n.toList ++ '\t' :: t ++ ['\n'] := by
      have hpre : ∀ a ∈ pre, read nd (some text) a.1 = .ok ((valOf nd (some text) a.1).getD []) := by
        clear h1 h4 h5 h3
        induction pre with
        | nil => intro a ha; cases ha
        | cons b l ih =>
          obtain ⟨m, j⟩ := b
          unfold scan at h2
          obtain ⟨u, e1, h2⟩ := bind_ok_inv h2
          obtain ⟨t, e2, -⟩ := bind_ok_inv e1
          intro a ha
          rcases List.mem_cons.mp ha with rfl | ha
          · dsimp only
            rw [valOf_some.mpr e2, e2]; rfl
          · exact ih h2 a ha
      have key : ∃ s', "Initializing Params\n".toList ++ s = s' ++ ['\n'] := by
        rw [h5 (fun m => (valOf nd (some text) m).getD []) hpre]
        rcases List.eq_nil_or_concat pre with rfl | ⟨p, b, rfl⟩
        · exact ⟨"Initializing Params".toList, by simp [recordLines]⟩
        · rw [List.concat_eq_append, List.map_append, recordLines, List.flatMap_append]
          simp only [List.map_cons, List.map_nil, List.flatMap_cons, List.flatMap_nil, List.append_nil]
          rw [← List.append_assoc, ← List.append_assoc]
          exact ⟨_, rfl⟩
      obtain ⟨s', hs'⟩ := key
      refine ⟨s', ?_⟩
      unfold prints
      rw [h4, ← List.append_assoc, hs']
      unfold readPrints
      rw [e]
      simp only [List.append_assoc, List.cons_append, List.nil_append]
    obtain ⟨s', hs'⟩ := hline
    refine ⟨n, t, s', (C56_lookup h (required_nosp n hn)).mp e, hs', ?_⟩
    cases k with
    | int =>
      left
      refine ⟨order_int _ hmem rfl, ?_⟩
      · rintro ⟨j, hj⟩
        unfold check at h3
        dsimp only at h3
        rw [((C58_integer_text t).1 j).mpr hj] at h3
        cases h3
    | dbl =>
      right
      refine ⟨order_dbl _ hmem rfl, ?_⟩
      · unfold check at h3
        dsimp only at h3
        cases hs : stod t with
        | none => rfl
        | some x => rw [hs] at h3; cases h3
    | str => cases h3

/-- The lines of a complete parameter file. -/
def sampleLines : List (List Char) := ["nt 10", "nx 17", "nl 3", "nm 3", "nlat 8", "nphi 8", "t_step_save 2", "dt 0.1",
  "compactification_length 10", "Rmax 5", "Rmin 1", "black_hole_mass 0.5", "black_hole_spin 0.3", "", "km1 0", "k0 0", "k1 0", "k2 0",
  "V2 0", "V3 0", "V4 0", "initial_data_type compact_pulse", "initial_data_direction ingoing", "amp 1 (the amplitude)", "rl 2", "ru 3",
  "l_ang 1", "m_ang -1"].map String.toList

theorem read_found {nd : Bool} {text : List Char} {ls : List (List Char)} (h : FileLines text ls) (n : String) :
    read nd (some text) n = match (ls.find? fun l => lineName l = n.toList).map fun l => extract (lineRest l) with
      | some v => .ok v
      | none => .error (.exit 0) := by
  rw [read_eq (Or.inr rfl), Option.getD_some, readLoop_lines h]
  rfl

/-- The hypotheses of the theorems are met: the parameters are read from the complete file, and missing and malformed values are
reported. -/
example : (∃ P, ctor (α := Nat) (fun t => some t.length) false (some (sampleLines.flatMap fun l => l ++ ['\n'])) = .ok P ∧
      P.amp = 1 ∧ P.m_ang = -1) ∧
    ctor (α := Nat) (fun t => some t.length) false (some "nt 10\nnx 17\n".toList) = .error (.exit 0) ∧
    ctor (α := Nat) (fun t => some t.length) false (some "nt 10\nnx many\n".toList) = .error .exc := by
  have f1 : FileLines (sampleLines.flatMap fun l => l ++ ['\n']) sampleLines := ⟨by decide, Or.inl rfl⟩
  have f2 : FileLines "nt 10\nnx 17\n".toList ["nt 10".toList, "nx 17".toList] := ⟨by decide, Or.inl rfl⟩
  have f3 : FileLines "nt 10\nnx many\n".toList ["nt 10".toList, "nx many".toList] := ⟨by decide, Or.inl rfl⟩
  have r1 : ∃ P, ctor (α := Nat) (fun t => some t.length) false (some (sampleLines.flatMap fun l => l ++ ['\n'])) = .ok P ∧
      P.amp = 1 ∧ P.m_ang = -1 := by
    unfold ctor readInt readDbl
    simp only [read_found f1]
    exact ⟨_, rfl, rfl, rfl⟩
  refine ⟨r1, ?_, ?_⟩
  · unfold ctor readInt readDbl
    simp only [read_found f2]
    rfl
  · unfold ctor readInt readDbl
    simp only [read_found f3]
    rfl

end SFK
