import Verif.Spec.Parity
import Verif.Props.PulseRun
import Verif.Props.Orientation
/-
C122: parity of a run of a self-interacting field.
-/
namespace SFK
open Scalar CR

variable {E : Env CR} {P : ParamRec CR} {g : Grid CR} {q : Phys} {x : ℕ → ℝ} {A : ℕ → ℕ → ℕ → ℝ} {e : Eom CR} {io : IOEnv CR} {M M' : ℕ → Junk (Cx CR)}
  {F Q B C D : ℕ → List CR} {tF tD : ℕ → List (List Char)} {res tv : ℕ → CR}

/-- moving the data by the map `ρ` of the grid points and evolving is evolving and moving the result -/
def Commutes (e : Eom CR) (g : Grid CR) (ρ : ℕ → ℕ) : Prop := (∀ i, i < g.d.total → ρ i < g.d.total) ∧
  ∀ F Q F' Q' : List CR, F.length = g.d.total → Q.length = g.d.total → F'.length = g.d.total → Q'.length = g.d.total →
    (∀ i, i < g.d.total → gv F' i = gv F (ρ i)) → (∀ i, i < g.d.total → gv Q' i = gv Q (ρ i)) → ∀ N,
    (∀ j, j ≤ N → AllFin (evoP e g F Q j).1 ∧ AllFin (evoP e g F Q j).2) →
    (∀ i, i < g.d.total → gv (evoP e g F' Q' N).1 i = gv (evoP e g F Q N).1 (ρ i)) ∧
    (∀ i, i < g.d.total → gv (evoP e g F' Q' N).2 i = gv (evoP e g F Q N).2 (ρ i))

theorem Commutes.of_sym {ρ : ℕ → ℕ} (hρ : ∀ i, i < g.d.total → ρ i < g.d.total)
    (hs : Sym e g (ι := Bool) (fun r => r = false) fun v => ∀ i, i < g.d.total → gv (v true) i = gv (v false) (ρ i)) {τ : ℝ} (hdt : e.dt = fin τ) :
    Commutes e g ρ := by
  refine ⟨hρ, fun F Q F' Q' a1 a2 a3 a4 h1 h2 N hN => ?_⟩
  have key := hs.evo hdt (F := fun r => if r then F' else F) (Q := fun r => if r then Q' else Q)
    (fun r => by cases r <;> simp [a1, a3]) (fun r => by cases r <;> simp [a2, a4]) (by simpa using h1) (by simpa using h2) N
    (fun r hr j hj => by subst hr; simpa using hN j hj)
  simpa using key

theorem moved_fin {ρ : ℕ → ℕ} (hρ : ∀ i, i < g.d.total → ρ i < g.d.total) {v w : List CR} (hv : v.length = g.d.total) (hw : w.length = g.d.total)
    (h : ∀ i, i < g.d.total → gv w i = gv v (ρ i)) (hf : AllFin v) : AllFin w := by
  rw [allFin_iff hw]
  intro i hi
  rw [h i hi]
  exact (allFin_iff hv).mp hf _ (hρ i hi)

theorem Commutes.fin {ρ : ℕ → ℕ} (h : Commutes e g ρ) {F Q F' Q' : List CR} (a1 : F.length = g.d.total) (a2 : Q.length = g.d.total)
    (a3 : F'.length = g.d.total) (a4 : Q'.length = g.d.total) (h1 : ∀ i, i < g.d.total → gv F' i = gv F (ρ i))
    (h2 : ∀ i, i < g.d.total → gv Q' i = gv Q (ρ i)) {N : ℕ} (hN : ∀ j, j ≤ N → AllFin (evoP e g F Q j).1 ∧ AllFin (evoP e g F Q j).2) :
    ∀ j, j ≤ N → AllFin (evoP e g F' Q' j).1 ∧ AllFin (evoP e g F' Q' j).2 := by
  intro j hj
  obtain ⟨c1, c2⟩ := h.2 F Q F' Q' a1 a2 a3 a4 h1 h2 j fun i hi => hN i (hi.trans hj)
  have l := evoP_len (e := e) a1 a2 j
  have l' := evoP_len (e := e) a3 a4 j
  exact ⟨moved_fin h.1 l.1 l'.1 c1 (hN j hj).1, moved_fin h.1 l.2 l'.2 c2 (hN j hj).2⟩

theorem Commutes.comp {ρ σ : ℕ → ℕ} (h : Commutes e g ρ) (k : Commutes e g σ) : Commutes e g fun i => ρ (σ i) := by
  refine ⟨fun i hi => h.1 _ (k.1 i hi), fun F Q F' Q' a1 a2 a3 a4 h1 h2 N hN => ?_⟩
  have t1 : ∀ (v : List CR) i, i < g.d.total → gv (tab g.d.total fun i => gv v (ρ i)) i = gv v (ρ i) := fun v i hi => gv_tab hi
  obtain ⟨c1, c2⟩ := h.2 F Q (tab g.d.total fun i => gv F (ρ i)) (tab g.d.total fun i => gv Q (ρ i)) a1 a2 (by simp) (by simp) (t1 F) (t1 Q) N hN
  have f1 := h.fin (F' := tab g.d.total fun i => gv F (ρ i)) (Q' := tab g.d.total fun i => gv Q (ρ i)) a1 a2 (by simp) (by simp) (t1 F) (t1 Q) hN
  obtain ⟨d1, d2⟩ := k.2 (tab g.d.total fun i => gv F (ρ i)) (tab g.d.total fun i => gv Q (ρ i)) F' Q' (by simp) (by simp) a3 a4
    (fun i hi => by rw [h1 i hi, t1 _ _ (k.1 i hi)]) (fun i hi => by rw [h2 i hi, t1 _ _ (k.1 i hi)]) N f1
  exact ⟨fun i hi => by rw [d1 i hi, c1 _ (k.1 i hi)], fun i hi => by rw [d2 i hi, c2 _ (k.1 i hi)]⟩

/-- data that is its own image stays so -/
theorem Commutes.keeps {ρ : ℕ → ℕ} (h : Commutes e g ρ) {F Q : List CR} (a1 : F.length = g.d.total) (a2 : Q.length = g.d.total)
    (h1 : ∀ i, i < g.d.total → gv F i = gv F (ρ i)) (h2 : ∀ i, i < g.d.total → gv Q i = gv Q (ρ i)) {N : ℕ}
    (hN : ∀ j, j ≤ N → AllFin (evoP e g F Q j).1 ∧ AllFin (evoP e g F Q j).2) :
    (∀ i, i < g.d.total → gv (evoP e g F Q N).1 i = gv (evoP e g F Q N).1 (ρ i)) ∧
    (∀ i, i < g.d.total → gv (evoP e g F Q N).2 i = gv (evoP e g F Q N).2 (ρ i)) := h.2 F Q F Q a1 a2 a1 a2 h1 h2 N hN

/-- data that is the opposite of its image stays so, in an even theory -/
theorem Commutes.keeps_neg (hX : Exact E P g q x A) (he : Eom.Of g P e) (hk : q.km1 = 0) (hk1 : q.k1 = 0) (hv : q.V3 = 0) {ρ : ℕ → ℕ}
    (h : Commutes e g ρ) {F Q : List CR} (a1 : F.length = g.d.total) (a2 : Q.length = g.d.total)
    (h1 : ∀ i, i < g.d.total → gv F i = -gv F (ρ i)) (h2 : ∀ i, i < g.d.total → gv Q i = -gv Q (ρ i)) {N : ℕ}
    (hN : ∀ j, j ≤ N → AllFin (evoP e g F Q j).1 ∧ AllFin (evoP e g F Q j).2) :
    (∀ i, i < g.d.total → gv (evoP e g F Q N).1 i = -gv (evoP e g F Q N).1 (ρ i)) ∧
    (∀ i, i < g.d.total → gv (evoP e g F Q N).2 i = -gv (evoP e g F Q N).2 (ρ i)) := by
  have t1 : ∀ (v : List CR) i, i < g.d.total → gv (tab g.d.total fun i => gv v (ρ i)) i = gv v (ρ i) := fun v i hi => gv_tab hi
  obtain ⟨c1, c2⟩ := h.2 F Q (tab g.d.total fun i => gv F (ρ i)) (tab g.d.total fun i => gv Q (ρ i)) a1 a2 (by simp) (by simp) (t1 F) (t1 Q) N hN
  have f1 := h.fin (F' := tab g.d.total fun i => gv F (ρ i)) (Q' := tab g.d.total fun i => gv Q (ρ i)) a1 a2 (by simp) (by simp) (t1 F) (t1 Q) hN
  obtain ⟨_, _, _, _, _, _, _, hdt⟩ := he.par hX.setup hX.phys
  have key := (sym_flip hX he hk hk1 hv).evo hdt (F := fun r => if r then F else tab g.d.total fun i => gv F (ρ i))
    (Q := fun r => if r then Q else tab g.d.total fun i => gv Q (ρ i))
    (fun r => by cases r <;> simp [a1]) (fun r => by cases r <;> simp [a2])
    (fun i hi => by simp only [if_true, Bool.false_eq_true, if_false]; rw [t1 F i hi, ← h1 i hi])
    (fun i hi => by simp only [if_true, Bool.false_eq_true, if_false]; rw [t1 Q i hi, ← h2 i hi]) N
    (fun r _ j hj => by
      cases r
      · simpa using f1 j hj
      · simpa using hN j hj)
  simp only [if_true, Bool.false_eq_true, if_false] at key
  exact ⟨fun i hi => by rw [key.1 i hi, c1 i hi], fun i hi => by rw [key.2 i hi, c2 i hi]⟩

/-- the flat index of the antipodal grid point -/
def Dims.inv (d : Dims) (i : ℕ) : ℕ := d.mir (d.rot (d.nphi / 2) i)

theorem Dims.inv_pos3 {d : Dims} {ix it ip : ℕ} (h : d.InR ix it ip) : d.inv (d.pos3 ix it ip) = d.pos3 ix (d.nlat - 1 - it) ((ip + d.nphi / 2) % d.nphi) := by
  unfold Dims.inv
  rw [d.rot_pos3 h, d.mir_pos3 ⟨h.1, h.2.1, Nat.mod_lt _ (by have := h.2.2; omega)⟩]

theorem Exact.comm_rot (h : Exact E P g q x A) (he : Eom.Of g P e) (hml : P.nl ≤ P.nm + 1 ∨ q.km1 = 0 ∧ q.k1 = 0 ∧ q.k2 = 0) (k : ℕ) :
    Commutes e g (g.d.rot k) := by
  obtain ⟨_, _, _, _, _, _, _, hdt⟩ := he.par h.setup h.phys
  exact .of_sym (fun i hi => g.d.rot_lt hi) (sym_rot h he hml k) hdt

theorem Exact.comm_inv (h : Exact E P g q x A) (hs : EquatorSym P.nlat P.nl P.nm x A) (he : Eom.Of g P e)
    (hml : P.nl ≤ P.nm + 1 ∨ q.km1 = 0 ∧ q.k1 = 0 ∧ q.k2 = 0) : Commutes e g g.d.inv := by
  obtain ⟨_, _, _, _, _, _, _, hdt⟩ := he.par h.setup h.phys
  exact (Commutes.of_sym (fun i hi => g.d.mir_lt hi) (sym_mir h hs he hml) hdt).comp (h.comm_rot he hml (g.d.nphi / 2))

theorem at_iff (hw : g.d.Ok) {σ : ℕ → ℕ → ℕ → ℕ × ℕ × ℕ} {ρ : ℕ → ℕ} (hσ : ∀ ix it ip, g.d.InR ix it ip → g.d.InR (σ ix it ip).1 (σ ix it ip).2.1 (σ ix it ip).2.2)
    (hρ : ∀ ix it ip, g.d.InR ix it ip → ρ (g.d.pos3 ix it ip) = g.d.pos3 (σ ix it ip).1 (σ ix it ip).2.1 (σ ix it ip).2.2) (T : CR → CR) (v : List CR) :
    (∀ ix it ip, ix < g.d.nx → it < g.d.nlat → ip < g.d.nphi → g.d.at3 v (σ ix it ip).1 (σ ix it ip).2.1 (σ ix it ip).2.2 = T (g.d.at3 v ix it ip)) ↔
    ∀ i, i < g.d.total → gv v (ρ i) = T (gv v i) := by
  constructor
  · intro h i hi
    obtain ⟨h1, h2⟩ := g.d.dec3 hi
    have := h _ _ _ h1.1 h1.2.1 h1.2.2
    rw [hw.at3_eq _ h1, hw.at3_eq _ (hσ _ _ _ h1), ← hρ _ _ _ h1, h2] at this
    exact this
  · intro h ix it ip hx ht hp
    have hr : g.d.InR ix it ip := ⟨hx, ht, hp⟩
    rw [hw.at3_eq _ hr, hw.at3_eq _ (hσ _ _ _ hr), ← hρ _ _ _ hr, h _ (g.d.pos3_lt hr)]

theorem parity_iff (hw : g.d.Ok) (s : ℝ) (v : List CR) : Parity g.d s v ↔ ∀ i, i < g.d.total → gv v (g.d.inv i) = fin s * gv v i :=
  at_iff hw (σ := fun ix it ip => (ix, g.d.nlat - 1 - it, (ip + g.d.nphi / 2) % g.d.nphi))
    (fun ix it ip h => ⟨h.1, by have := h.2.1; dsimp only; omega, Nat.mod_lt _ (by have := h.2.2; omega)⟩) (fun ix it ip h => g.d.inv_pos3 h) (fun c => fin s * c) v

theorem turnsOver_iff (hw : g.d.Ok) (k : ℕ) (v : List CR) : TurnsOver g.d k v ↔ ∀ i, i < g.d.total → gv v (g.d.rot k i) = -gv v i :=
  at_iff hw (σ := fun ix it ip => (ix, it, (ip + k) % g.d.nphi))
    (fun ix it ip h => ⟨h.1, h.2.1, Nat.mod_lt _ (by have := h.2.2; omega)⟩) (fun ix it ip h => g.d.rot_pos3 h) (fun c => -c) v

theorem one_mul_cr (c : CR) : fin 1 * c = c := by
  cases c with
  | bad => rfl
  | fin a => rw [fin_mul, one_mul]

theorem neg_one_mul_cr (c : CR) : fin (-1) * c = -c := by
  cases c with
  | bad => rfl
  | fin a => rw [fin_mul, fin_neg, neg_one_mul]

theorem neg_neg_cr (c : CR) : - -c = c := by
  cases c with
  | bad => rfl
  | fin a => rw [fin_neg, fin_neg, neg_neg]

/-! ### states -/

/-- **C122**: a state of even parity keeps it for as long as the run stays finite, whatever the Lagrangian and the spin of the hole.  At most one order
missing, or a constant kinetic function. -/
theorem C122_even_states_partial (h : Exact E P g q x A) (hs : EquatorSym P.nlat P.nl P.nm x A)
    (hml : P.nl ≤ P.nm + 1 ∨ q.km1 = 0 ∧ q.k1 = 0 ∧ q.k2 = 0) (he : Eom.Of g P e) (J : ℕ → Junk (Cx CR)) {f p : Field CR}
    (hf : f.Sized (P.nx * P.nlat * P.nphi)) (hp : p.Sized (P.nx * P.nlat * P.nphi)) (N : ℕ) (hF : Parity g.d 1 f.n) (hQ : Parity g.d 1 p.n)
    (hfin : StaysFinite g e f p N) :
    ∃ a F Q, evolve g J e f p N = .ok (a, F, Q) ∧ Parity g.d 1 F.n ∧ Parity g.d 1 Q.n := by
  have hok := h.setup.wf.ok
  have tot := h.setup.total
  obtain ⟨s1, F, Q, a1, _, _, _, a5, a6⟩ := evolve_eq h.setup he J hf hp N
  have sw : ∀ v : List CR, Parity g.d 1 v ↔ ∀ i, i < g.d.total → gv v i = gv v (g.d.inv i) := fun v => by
    rw [parity_iff hok]
    exact forall_congr' fun i => forall_congr' fun _ => by rw [one_mul_cr, eq_comm]
  obtain ⟨k1, k2⟩ := (h.comm_inv hs he hml).keeps (hf.1.trans tot.symm) (hp.1.trans tot.symm) ((sw _).mp hF) ((sw _).mp hQ)
    (hfin.evoP h.setup he hf hp)
  refine ⟨_, F, Q, a1, ?_, ?_⟩
  · rw [a5]; exact (sw _).mpr k1
  · rw [a6]; exact (sw _).mpr k2

/-- **C122**: with an even kinetic function and an even potential (`km1=k1=V3=0`) a state of odd parity keeps it.  Same restriction. -/
theorem C122_odd_states_partial (h : Exact E P g q x A) (hs : EquatorSym P.nlat P.nl P.nm x A) (hk : q.km1 = 0) (hk1 : q.k1 = 0) (hv : q.V3 = 0)
    (hml : P.nl ≤ P.nm + 1 ∨ q.k2 = 0) (he : Eom.Of g P e) (J : ℕ → Junk (Cx CR)) {f p : Field CR}
    (hf : f.Sized (P.nx * P.nlat * P.nphi)) (hp : p.Sized (P.nx * P.nlat * P.nphi)) (N : ℕ) (hF : Parity g.d (-1) f.n) (hQ : Parity g.d (-1) p.n)
    (hfin : StaysFinite g e f p N) :
    ∃ a F Q, evolve g J e f p N = .ok (a, F, Q) ∧ Parity g.d (-1) F.n ∧ Parity g.d (-1) Q.n := by
  have hok := h.setup.wf.ok
  have tot := h.setup.total
  obtain ⟨s1, F, Q, a1, _, _, _, a5, a6⟩ := evolve_eq h.setup he J hf hp N
  have sw : ∀ v : List CR, Parity g.d (-1) v ↔ ∀ i, i < g.d.total → gv v i = -gv v (g.d.inv i) := fun v => by
    rw [parity_iff hok]
    refine forall_congr' fun i => forall_congr' fun _ => ?_
    rw [neg_one_mul_cr]
    exact ⟨fun z => by rw [z, neg_neg_cr], fun z => by rw [z, neg_neg_cr]⟩
  obtain ⟨k1, k2⟩ := (h.comm_inv hs he (hml.imp id fun z => ⟨hk, hk1, z⟩)).keeps_neg h he hk hk1 hv (hf.1.trans tot.symm) (hp.1.trans tot.symm)
    ((sw _).mp hF) ((sw _).mp hQ) (hfin.evoP h.setup he hf hp)
  refine ⟨_, F, Q, a1, ?_, ?_⟩
  · rw [a5]; exact (sw _).mpr k1
  · rw [a6]; exact (sw _).mpr k2

/-- **C122**: with an even kinetic function and an even potential a state that a rotation by `k` azimuthal points turns into its opposite stays such a
state.  Same restriction. -/
theorem C122_turned_states_partial (h : Exact E P g q x A) (hk : q.km1 = 0) (hk1 : q.k1 = 0) (hv : q.V3 = 0)
    (hml : P.nl ≤ P.nm + 1 ∨ q.k2 = 0) (he : Eom.Of g P e) (J : ℕ → Junk (Cx CR)) {f p : Field CR}
    (hf : f.Sized (P.nx * P.nlat * P.nphi)) (hp : p.Sized (P.nx * P.nlat * P.nphi)) (k N : ℕ) (hF : TurnsOver g.d k f.n) (hQ : TurnsOver g.d k p.n)
    (hfin : StaysFinite g e f p N) :
    ∃ a F Q, evolve g J e f p N = .ok (a, F, Q) ∧ TurnsOver g.d k F.n ∧ TurnsOver g.d k Q.n := by
  have hok := h.setup.wf.ok
  have tot := h.setup.total
  obtain ⟨s1, F, Q, a1, _, _, _, a5, a6⟩ := evolve_eq h.setup he J hf hp N
  have sw : ∀ v : List CR, TurnsOver g.d k v ↔ ∀ i, i < g.d.total → gv v i = -gv v (g.d.rot k i) := fun v => by
    rw [turnsOver_iff hok]
    exact forall_congr' fun i => forall_congr' fun _ => ⟨fun z => by rw [z, neg_neg_cr], fun z => by rw [z, neg_neg_cr]⟩
  obtain ⟨k1, k2⟩ := (h.comm_rot he (hml.imp id fun z => ⟨hk, hk1, z⟩) k).keeps_neg h he hk hk1 hv (hf.1.trans tot.symm) (hp.1.trans tot.symm)
    ((sw _).mp hF) ((sw _).mp hQ) (hfin.evoP h.setup he hf hp)
  refine ⟨_, F, Q, a1, ?_, ?_⟩
  · rw [a5]; exact (sw _).mpr k1
  · rw [a6]; exact (sw _).mpr k2

/-! ### tables -/

theorem phase_half {n : ℕ} (hn : 0 < n) (he : n % 2 = 0) (m : ℕ) : Complex.exp (Complex.I * m * phiN n (n / 2)) = (-1) ^ m := by
  have hn' : (n : ℂ) ≠ 0 := by exact_mod_cast hn.ne'
  have h2 : ((n / 2 : ℕ) : ℝ) = (n : ℝ) / 2 := by
    rw [Nat.cast_div (Nat.dvd_of_mod_eq_zero he) (by norm_num)]; norm_num
  unfold phiN
  rw [h2, ← Complex.exp_pi_mul_I, ← Complex.exp_nat_mul]
  congr 1
  push_cast
  field_simp

theorem parity_zero (h : Exact E P g q x A) (hs : EquatorSym P.nlat P.nl P.nm x A) (hp : P.nphi % 2 = 0) {v : List CR} {y : ℕ → ℝ}
    (hy : IsF g.d.total v y) {s : ℕ} (hr : Parity g.d ((-1) ^ s) v) {ix l m : ℕ} (hx : ix < P.nx) (hl : l < P.nl) (hpar : (l + s) % 2 = 1) (h1 : m ≤ l)
    (h2 : m ≤ P.nm) : anaN A P.nlat P.nphi (fun it ip => y (g.d.pos3 ix it ip)) l m = 0 := by
  have hok := h.setup.wf.ok
  have p2 : 0 < P.nphi := by rw [← h.nphi]; exact hok.nphi_pos
  have hp2 : ∀ it ip, it < P.nlat → ip < P.nphi → y (g.d.pos3 ix (P.nlat - 1 - it) ((ip + P.nphi / 2) % P.nphi)) = (-1) ^ s * y (g.d.pos3 ix it ip) := by
    intro it ip b1 b2
    have r1 : g.d.InR ix it ip := ⟨by rw [h.nx]; exact hx, by rw [h.nlat]; exact b1, by rw [h.nphi]; exact b2⟩
    have r2 : g.d.InR ix (P.nlat - 1 - it) ((ip + P.nphi / 2) % P.nphi) :=
      ⟨by rw [h.nx]; exact hx, by rw [h.nlat]; omega, by rw [h.nphi]; exact Nat.mod_lt _ p2⟩
    have := hr ix it ip r1.1 r1.2.1 r1.2.2
    rw [h.nlat, h.nphi, hy.at3 hok r1, hy.at3 hok r2, fin_mul, fin_inj] at this
    exact this
  have k1 := anaN_mir hs (nphi := P.nphi) (fun it ip => y (g.d.pos3 ix it ((ip + P.nphi / 2) % P.nphi))) (l := l) (m := m) hl.le h1 (by omega)
  have k2 := anaN_rot (A := A) (nlat := P.nlat) p2 (P.nphi / 2) (fun it ip => y (g.d.pos3 ix it ip)) l m
  rw [phase_half p2 hp] at k2
  have k3 : anaN A P.nlat P.nphi (fun it ip => y (g.d.pos3 ix (P.nlat - 1 - it) ((ip + P.nphi / 2) % P.nphi))) l m
      = ((-1) ^ s : ℂ) * anaN A P.nlat P.nphi (fun it ip => y (g.d.pos3 ix it ip)) l m := by
    rw [anaN_congr (w := fun it ip => (-1) ^ s * y (g.d.pos3 ix it ip) + 0 * y (g.d.pos3 ix it ip)) fun it ip b1 b2 => by
      beta_reduce; rw [hp2 it ip b1 b2]; ring, anaN_comb]
    push_cast
    ring
  rw [k3, k2] at k1
  have e1 : (eps l m : ℂ) * (-1) ^ m = -(-1) ^ s := by
    unfold eps
    push_cast
    rw [← pow_add, show l + m + m = l + 2 * m by ring, pow_add, pow_mul, neg_one_sq, one_pow, mul_one]
    rcases Nat.even_or_odd l with a | a
    · rw [a.neg_one_pow, Odd.neg_one_pow (by rw [Nat.odd_iff]; rw [Nat.even_iff] at a; omega), neg_neg]
    · rw [a.neg_one_pow, Even.neg_one_pow (by rw [Nat.even_iff]; rw [Nat.odd_iff] at a; omega)]
  rw [← mul_assoc, e1] at k1
  have k4 : (2 * (-1) ^ s : ℂ) * anaN A P.nlat P.nphi (fun it ip => y (g.d.pos3 ix it ip)) l m = 0 := by linear_combination k1
  exact (mul_eq_zero.mp k4).resolve_left (mul_ne_zero (by norm_num) (pow_ne_zero _ (by norm_num)))

theorem turned_zero (h : Exact E P g q x A) {m : ℕ} (hp : 2 * m ∣ P.nphi) {v : List CR} {y : ℕ → ℝ} (hy : IsF g.d.total v y)
    (hr : TurnsOver g.d (P.nphi / (2 * m)) v) {ix l m' : ℕ} (hx : ix < P.nx) (hlm : m' < m) :
    anaN A P.nlat P.nphi (fun it ip => y (g.d.pos3 ix it ip)) l m' = 0 := by
  have hok := h.setup.wf.ok
  have p2 : 0 < P.nphi := by rw [← h.nphi]; exact hok.nphi_pos
  have k2 := anaN_rot (A := A) (nlat := P.nlat) p2 (P.nphi / (2 * m)) (fun it ip => y (g.d.pos3 ix it ip)) l m'
  rw [anaN_congr (w := fun it ip => (-1) * y (g.d.pos3 ix it ip) + 0 * y (g.d.pos3 ix it ip)) fun it ip b1 b2 => by
    have r1 : g.d.InR ix it ip := ⟨by rw [h.nx]; exact hx, by rw [h.nlat]; exact b1, by rw [h.nphi]; exact b2⟩
    have r2 : g.d.InR ix it ((ip + P.nphi / (2 * m)) % P.nphi) := ⟨r1.1, r1.2.1, by rw [h.nphi]; exact Nat.mod_lt _ p2⟩
    have := hr ix it ip r1.1 r1.2.1 r1.2.2
    rw [h.nphi, hy.at3 hok r1, hy.at3 hok r2, fin_neg, fin_inj] at this
    beta_reduce
    rw [this]; ring, anaN_comb] at k2
  have e1 : Complex.exp (Complex.I * m' * phiN P.nphi (P.nphi / (2 * m))) ≠ -1 := by
    have hm : (0 : ℝ) < m := by exact_mod_cast (show 0 < m by omega)
    have hn : (0 : ℝ) < P.nphi := by exact_mod_cast p2
    have e2 : phiN P.nphi (P.nphi / (2 * m)) = Real.pi / m := by
      unfold phiN
      rw [Nat.cast_div hp (by push_cast; positivity)]
      push_cast
      field_simp
    intro hc
    rw [e2, show Complex.I * m' * ((Real.pi / m : ℝ) : ℂ) = ((m' * (Real.pi / m) : ℝ) : ℂ) * Complex.I by push_cast; ring] at hc
    have hre := congrArg Complex.re hc
    rw [Complex.exp_ofReal_mul_I_re, Complex.neg_re, Complex.one_re] at hre
    have b1 : (m' : ℝ) * (Real.pi / m) < Real.pi := by
      have : (m' : ℝ) < m := by exact_mod_cast (show m' < m by omega)
      rw [← mul_div_assoc, div_lt_iff₀ hm, mul_comm]
      exact mul_lt_mul_of_pos_left this Real.pi_pos
    have b2 : (0 : ℝ) ≤ (m' : ℝ) * (Real.pi / m) := by positivity
    have b3 := Real.strictAntiOn_cos (show (m' : ℝ) * (Real.pi / m) ∈ Set.Icc 0 Real.pi from ⟨b2, b1.le⟩)
      (show Real.pi ∈ Set.Icc 0 Real.pi from ⟨Real.pi_pos.le, le_rfl⟩) b1
    rw [Real.cos_pi, hre] at b3
    exact lt_irrefl _ b3
  have k4 : (Complex.exp (Complex.I * m' * phiN P.nphi (P.nphi / (2 * m))) + 1) * anaN A P.nlat P.nphi (fun it ip => y (g.d.pos3 ix it ip)) l m' = 0 := by
    push_cast at k2
    linear_combination -k2
  refine (mul_eq_zero.mp k4).resolve_left fun hc => e1 ?_
  linear_combination hc

/-- **C122**: a finite field of parity `s` (`1` or `-1`) on a grid with an even number of azimuthal points: the rows of its table with a degree of
the other parity show `-16`. -/
theorem C122_parity_table (h : Exact E P g q x A) (hs : EquatorSym P.nlat P.nl P.nm x A) (hp : P.nphi % 2 = 0) {io : IOEnv CR} {v : List CR}
    (hv : v.length = P.nx * P.nlat * P.nphi) (hf : AllFin v) {s : ℕ} (hr : Parity g.d ((-1) ^ s) v) {t : List (List Char)} (ht : IsTable io g v t) :
    ∃ W : ℕ → ℕ → ℝ, t = valueTable io P.nx P.nl (radPt E.useCheb P.nx q.lo q.up) W ∧
      ∀ ix l, ix < P.nx → l < P.nl → (l + s) % 2 = 1 → W ix l = -16 := by
  have tot := h.setup.total
  obtain ⟨y, hy⟩ := hf.isF (hv.trans tot.symm)
  exact ⟨_, table_fin h hy ht, fun ix l hx hl hpar => shown_pow_zero fun m h1 h2 => parity_zero h hs hp hy hr hx hl hpar h1 (by omega)⟩

/-- **C122**: a finite field that a rotation by `nphi/(2m)` azimuthal points turns into its opposite: the rows of its table with a degree below `m`
show `-16`. -/
theorem C122_turned_table (h : Exact E P g q x A) {m : ℕ} (hp : 2 * m ∣ P.nphi) {io : IOEnv CR} {v : List CR}
    (hv : v.length = P.nx * P.nlat * P.nphi) (hf : AllFin v) (hr : TurnsOver g.d (P.nphi / (2 * m)) v) {t : List (List Char)} (ht : IsTable io g v t) :
    ∃ W : ℕ → ℕ → ℝ, t = valueTable io P.nx P.nl (radPt E.useCheb P.nx q.lo q.up) W ∧ ∀ ix l, ix < P.nx → l < P.nl → l < m → W ix l = -16 := by
  have tot := h.setup.total
  obtain ⟨y, hy⟩ := hf.isF (hv.trans tot.symm)
  exact ⟨_, table_fin h hy ht, fun ix l hx hl hlm => shown_pow_zero fun m' h1 h2 => turned_zero h hp hy hr hx (by omega)⟩

/-! ### runs from the built-in initial data -/

theorem phiN_half {n : ℕ} (hn : 0 < n) {k m : ℕ} (ip : ℕ) :
    Complex.exp (Complex.I * m * phiN n ((ip + k) % n)) = Complex.exp (Complex.I * m * phiN n k) * Complex.exp (Complex.I * m * phiN n ip) := by
  have := phase_mod hn (m : ℤ) (ip + k)
  push_cast at this
  rw [this, ← Complex.exp_add]
  congr 1
  unfold phiN
  push_cast
  ring

theorem cos_shift {n : ℕ} (hn : 0 < n) {k m : ℕ} {s : ℝ} (h : Complex.exp (Complex.I * m * phiN n k) = (s : ℂ)) (ip : ℕ) :
    Real.cos (m * phiN n ((ip + k) % n)) = s * Real.cos (m * phiN n ip) := by
  have := congrArg Complex.re (phiN_half hn (k := k) (m := m) ip)
  rw [h, Complex.re_ofReal_mul] at this
  have e : ∀ φ : ℝ, (Complex.exp (Complex.I * m * φ)).re = Real.cos (m * φ) := fun φ => by
    rw [show Complex.I * m * (φ : ℂ) = ((m * φ : ℝ) : ℂ) * Complex.I by push_cast; ring, Complex.exp_ofReal_mul_I_re]
  rw [e, e] at this
  exact this

theorem oneHarmonic_parity (h : Exact E P g q x A) (hs : EquatorSym P.nlat P.nl P.nm x A) (hp : P.nphi % 2 = 0) {l m : ℕ} {α : ℝ} {u : ℕ → ℝ}
    {v : List CR} (hu : OneHarmonic g.d x l m α 0 u v) : Parity g.d ((-1) ^ l) v := by
  intro ix it ip b1 b2 b3
  have p2 : 0 < P.nphi := by rw [← h.nphi]; exact h.setup.wf.ok.nphi_pos
  rw [hu ix it ip b1 b2 b3, hu ix _ _ b1 (by omega) (Nat.mod_lt _ (by omega)), fin_mul, fin_inj, h.nlat, h.nphi, arccos_mir hs (by rw [← h.nlat]; exact b2)]
  unfold shapeY
  rw [ThN_mir, cos_shift p2 (s := (-1) ^ m) (by rw [phase_half p2 hp]; push_cast; rfl)]
  have : ((-1 : ℝ) ^ (l + m)) * (-1) ^ m = (-1) ^ l := by
    rw [← pow_add, show l + m + m = l + 2 * m by ring, pow_add, pow_mul, neg_one_sq, one_pow, mul_one]
  linear_combination u ix * ThN l m (Real.arccos (x it)) * (α * Real.cos (m * phiN P.nphi ip)) * this

theorem oneHarmonic_turns (h : Exact E P g q x A) {l m : ℕ} (hm : 0 < m) (hp : 2 * m ∣ P.nphi) {α : ℝ} {u : ℕ → ℝ}
    {v : List CR} (hu : OneHarmonic g.d x l m α 0 u v) : TurnsOver g.d (P.nphi / (2 * m)) v := by
  intro ix it ip b1 b2 b3
  have p2 : 0 < P.nphi := by rw [← h.nphi]; exact h.setup.wf.ok.nphi_pos
  have hm' : (m : ℂ) ≠ 0 := by exact_mod_cast hm.ne'
  have hn' : (P.nphi : ℂ) ≠ 0 := by exact_mod_cast p2.ne'
  rw [hu ix it ip b1 b2 b3, hu ix _ _ b1 b2 (Nat.mod_lt _ (by omega)), fin_neg, fin_inj, h.nphi]
  unfold shapeY
  rw [cos_shift p2 (s := -1) (by
    rw [show ((-1 : ℝ) : ℂ) = Complex.exp (Real.pi * Complex.I) by rw [Complex.exp_pi_mul_I]; norm_num]
    congr 1
    unfold phiN
    rw [Nat.cast_div hp (by push_cast; positivity)]
    push_cast
    field_simp)]
  ring

/-- **C122**: a run from the built-in initial data with a harmonic of even degree, for any Lagrangian and any hole, on a grid symmetric about the equator
with an even number of azimuthal points: at every step, for as long as the run stays finite, the rows of odd degree of the tables of the field and of
its time derivative show `-16`.  At most one order missing, or a constant kinetic function. -/
theorem C122_even_run_partial (h : Exact E P g q x A) (hs : EquatorSym P.nlat P.nl P.nm x A)
    (hml : P.nl ≤ P.nm + 1 ∨ q.km1 = 0 ∧ q.k1 = 0 ∧ q.k2 = 0) (hp : P.nphi % 2 = 0) {amp rl ru : ℝ} {l m : ℕ} (hP : PulseParams P amp rl ru l m)
    (hl : l % 2 = 0) (hH : History P g M F Q B C) {N : ℕ} (hfin : ∀ k ≤ N, AllFin (F k) ∧ AllFin (Q k)) :
    ∀ k ≤ N, Parity g.d 1 (F k) ∧ Parity g.d 1 (Q k) ∧ ∀ t, (IsTable io g (F k) t ∨ IsTable io g (Q k) t) →
      ∃ W : ℕ → ℕ → ℝ, t = valueTable io P.nx P.nl (radPt E.useCheb P.nx q.lo q.up) W ∧
        ∀ ix l', ix < P.nx → l' < P.nl → l' % 2 = 1 → W ix l' = -16 := by
  intro k hk'
  obtain ⟨e, f, p, he, hf, hp', n1, n2, n3, n4⟩ := hH.run h
  obtain ⟨y0, z0, i1, i2⟩ := initial_harmonic h hP hH
  obtain ⟨J⟩ : Nonempty (Junk (Cx CR)) := ⟨fun _ _ => default⟩
  have st := n4 k fun j hj => hfin j (hj.trans hk')
  have one : ((-1 : ℝ)) ^ l = 1 := Even.neg_one_pow (Nat.even_iff.mpr hl)
  have o1 := oneHarmonic_parity h hs hp i1
  have o2 := oneHarmonic_parity h hs hp i2
  rw [one] at o1 o2
  obtain ⟨a, F', Q', c1, c2, c3⟩ := C122_even_states_partial h hs hml he (fun _ => J) hf hp' k (by rw [n1]; exact o1) (by rw [n2]; exact o2) st
  rw [(n3 _ _ _ _ _ c1).1] at c2
  rw [(n3 _ _ _ _ _ c1).2] at c3
  refine ⟨c2, c3, fun t ht => ?_⟩
  have key : ∀ v : List CR, v.length = P.nx * P.nlat * P.nphi → AllFin v → Parity g.d 1 v → IsTable io g v t →
      ∃ W : ℕ → ℕ → ℝ, t = valueTable io P.nx P.nl (radPt E.useCheb P.nx q.lo q.up) W ∧
        ∀ ix l', ix < P.nx → l' < P.nl → l' % 2 = 1 → W ix l' = -16 := fun v w1 w2 w3 w4 => by
    obtain ⟨W, d1, d2⟩ := C122_parity_table h hs hp w1 w2 (s := 0) (by rw [pow_zero]; exact w3) w4
    exact ⟨W, d1, fun ix l' b1 b2 b3 => d2 ix l' b1 b2 (by omega)⟩
  rcases ht with ht | ht
  · exact key _ (hH.len k).1 (hfin k hk').1 c2 ht
  · exact key _ (hH.len k).2 (hfin k hk').2 c3 ht

/-- **C122**: with an even kinetic function and an even potential (`km1=k1=V3=0`) a run from a harmonic of odd degree shows `-16` in all rows of even
degree, and, if its order `m` is not zero and `2m` divides the number of azimuthal points, a run from any harmonic shows `-16` in all rows of a degree
below `m`.  Same restriction. -/
theorem C122_odd_run_partial (h : Exact E P g q x A) (hs : EquatorSym P.nlat P.nl P.nm x A) (hk : q.km1 = 0) (hk1 : q.k1 = 0) (hv : q.V3 = 0)
    (hml : P.nl ≤ P.nm + 1 ∨ q.k2 = 0) {amp rl ru : ℝ} {l m : ℕ} (hP : PulseParams P amp rl ru l m)
    (hH : History P g M F Q B C) {N : ℕ} (hfin : ∀ k ≤ N, AllFin (F k) ∧ AllFin (Q k)) :
    ∀ k ≤ N, ∀ t, (IsTable io g (F k) t ∨ IsTable io g (Q k) t) →
      ∃ W : ℕ → ℕ → ℝ, t = valueTable io P.nx P.nl (radPt E.useCheb P.nx q.lo q.up) W ∧
        (l % 2 = 1 → P.nphi % 2 = 0 → ∀ ix l', ix < P.nx → l' < P.nl → l' % 2 = 0 → W ix l' = -16) ∧
        (0 < m → 2 * m ∣ P.nphi → ∀ ix l', ix < P.nx → l' < P.nl → l' < m → W ix l' = -16) := by
  intro k hk' t ht
  have hok := h.setup.wf.ok
  have tot := h.setup.total
  obtain ⟨e, f, p, he, hf, hp', n1, n2, n3, n4⟩ := hH.run h
  obtain ⟨y0, z0, i1, i2⟩ := initial_harmonic h hP hH
  obtain ⟨J⟩ : Nonempty (Junk (Cx CR)) := ⟨fun _ _ => default⟩
  have st := n4 k fun j hj => hfin j (hj.trans hk')
  obtain ⟨v, w1, w2, w3, w4⟩ : ∃ v, (v = F k ∨ v = Q k) ∧ v.length = P.nx * P.nlat * P.nphi ∧ AllFin v ∧ IsTable io g v t := by
    rcases ht with ht | ht
    · exact ⟨_, .inl rfl, (hH.len k).1, (hfin k hk').1, ht⟩
    · exact ⟨_, .inr rfl, (hH.len k).2, (hfin k hk').2, ht⟩
  obtain ⟨y, hy⟩ := w3.isF (w2.trans tot.symm)
  refine ⟨_, table_fin h hy w4, fun ho hp => ?_, fun hm hp => ?_⟩
  · have one : ((-1 : ℝ)) ^ l = -1 := Odd.neg_one_pow (Nat.odd_iff.mpr ho)
    have o1 := oneHarmonic_parity h hs hp i1
    have o2 := oneHarmonic_parity h hs hp i2
    rw [one] at o1 o2
    obtain ⟨a, F', Q', c1, c2, c3⟩ := C122_odd_states_partial h hs hk hk1 hv hml he (fun _ => J) hf hp' k (by rw [n1]; exact o1) (by rw [n2]; exact o2) st
    rw [(n3 _ _ _ _ _ c1).1] at c2
    rw [(n3 _ _ _ _ _ c1).2] at c3
    have w5 : Parity g.d (-1) v := by rcases w1 with rfl | rfl <;> assumption
    intro ix l' b1 b2 b3
    refine shown_pow_zero fun m' d1 d2 => parity_zero h hs hp hy (s := 1) (by rw [pow_one]; exact w5) b1 b2 (by omega) d1 (by omega)
  · obtain ⟨a, F', Q', c1, c2, c3⟩ := C122_turned_states_partial h hk hk1 hv hml he (fun _ => J) hf hp' (P.nphi / (2 * m)) k
      (by rw [n1]; exact oneHarmonic_turns h hm hp i1) (by rw [n2]; exact oneHarmonic_turns h hm hp i2) st
    rw [(n3 _ _ _ _ _ c1).1] at c2
    rw [(n3 _ _ _ _ _ c1).2] at c3
    have w5 : TurnsOver g.d (P.nphi / (2 * m)) v := by rcases w1 with rfl | rfl <;> assumption
    intro ix l' b1 b2 b3
    exact shown_pow_zero fun m' d1 d2 => turned_zero h hp hy w5 b1 (by omega)


theorem realY_zero : 1 / 10 < |realY 0 0 (Real.arccos (1 / 8)) 0| := by
  rw [realY_shape]
  unfold shapeY ThN legP nrmY
  have hp := Real.pi_lt_d2
  have hp0 := Real.pi_pos
  have h1 : (1 / 10 : ℝ) < Real.sqrt (1 / (4 * Real.pi)) := by
    refine Real.lt_sqrt_of_sq_lt ?_
    rw [lt_div_iff₀ (by positivity)]
    nlinarith
  simpa [abs_of_nonneg (Real.sqrt_nonneg _)] using h1

/-- Non-vacuity of C122: for spin 0 and 3/10, in every build, a pulse of degree and order `0` meets the hypotheses of `C122_even_run_partial` for 3
steps, and one of degree and order `1` those of `C122_odd_run_partial`, for both of its conclusions. -/
example (odd : Bool) (contig ndebug useCheb : Bool) (a : ℝ) (ha : a = 0 ∨ a = 3 / 10) (M : ℕ → Junk (Cx CR)) : ∃ (E : Env CR) (P : ParamRec CR) (q : Phys)
    (x : ℕ → ℝ) (A : ℕ → ℕ → ℕ → ℝ) (g : Grid CR) (amp rl ru : ℝ) (F Q B C : ℕ → List CR) (l m : ℕ),
    E.contig = contig ∧ E.ndebug = ndebug ∧ E.useCheb = useCheb ∧ q.a = a ∧ amp ≠ 0 ∧
    Exact E P g q x A ∧ EquatorSym P.nlat P.nl P.nm x A ∧ q.km1 = 0 ∧ q.k1 = 0 ∧ q.V3 = 0 ∧ P.nl ≤ P.nm + 1 ∧ P.nphi % 2 = 0 ∧
    PulseParams P amp rl ru l m ∧ l = (if odd then 1 else 0) ∧ (odd = true → 0 < m ∧ 2 * m ∣ P.nphi) ∧
    History P g M F Q B C ∧ ∀ k ≤ 3, AllFin (F k) ∧ AllFin (Q k) := by
  have io : IOEnv CR := ⟨fun _ => true, fun _ => []⟩
  cases odd
  · obtain ⟨E, P, q, x, A, g, amp, rl, ru, F, Q, B, C, D, tF, tD, res, tv, a1, a2, a3, a4, a5, a6, a7, a8, a9, b1, b2, b3, b4, b5, b6, b7, b8, b9, n1, n2, _, c2, _, c3⟩ :=
      pulse_demo le_rfl (Nat.zero_le 1) realY_zero contig ndebug useCheb a ha io M
    exact ⟨E, P, q, x, A, g, amp, rl, ru, F, Q, B, C, 0, 0, a1, a2, a3, b1, b8, a4, a5, b2, b4, b6, by omega, by rw [n1], b9, rfl, by simp, c2, c3⟩
  · obtain ⟨E, P, q, x, A, g, amp, rl, ru, F, Q, B, C, D, tF, tD, res, tv, a1, a2, a3, a4, a5, a6, a7, a8, a9, b1, b2, b3, b4, b5, b6, b7, b8, b9, n1, n2, _, c2, _, c3⟩ :=
      pulse_demo le_rfl le_rfl realY_one contig ndebug useCheb a ha io M
    exact ⟨E, P, q, x, A, g, amp, rl, ru, F, Q, B, C, 1, 1, a1, a2, a3, b1, b8, a4, a5, b2, b4, b6, by omega, by rw [n1], b9, rfl,
      fun _ => ⟨Nat.one_pos, by rw [n1]; decide⟩, c2, c3⟩

end SFK
