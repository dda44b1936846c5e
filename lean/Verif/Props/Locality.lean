import Verif.Lemmas.Locality
import Verif.Props.Symmetry
import Verif.Props.Step
/-
C100: how fast information moves over the grid.
-/
namespace SFK
open Scalar CR

section
variable {α : Type} [Scalar α] {E : Env α} {P : ParamRec α} {g : Grid α} {e₁ e₂ : Eom α} {f₁ p₁ f₂ p₂ : Field α}

theorem evoP_scr {e : Eom α} (s : Scratch α) (F Q : List α) (N : ℕ) : evoP { e with scr := s } g F Q N = evoP e g F Q N := by
  induction N with
  | zero => rfl
  | succ N ih =>
    unfold evoP
    rw [ih, Eom.stepF_scr]

theorem evoP_of (hS : Setup E P g) (h1 : Eom.Of g P e₁) (h2 : Eom.Of g P e₂) (F Q : List α) (N : ℕ) : evoP e₁ g F Q N = evoP e₂ g F Q N := by
  obtain ⟨a, s, x1, -, rfl⟩ := h1
  obtain ⟨b, t, y1, -, rfl⟩ := h2
  rw [x1] at y1
  cases y1
  exact (evoP_scr s F Q N).trans (evoP_scr t F Q N).symm

variable (hS : Setup E P g) (hfd : E.useCheb = false) (he₁ : Eom.Of g P e₁) (he₂ : Eom.Of g P e₂)
  (hf₁ : f₁.Sized (P.nx * P.nlat * P.nphi)) (hp₁ : p₁.Sized (P.nx * P.nlat * P.nphi))
  (hf₂ : f₂.Sized (P.nx * P.nlat * P.nphi)) (hp₂ : p₂.Sized (P.nx * P.nlat * P.nphi)) (J₁ J₂ : ℕ → Junk (Cx α))
include hS hfd he₁ he₂ hf₁ hp₁ hf₂ hp₂

omit he₁ he₂ hf₁ hp₁ hf₂ hp₂ in
theorem radial_fd : ∃ fd, g.radial = .fd fd := by
  rw [hS.radial]
  unfold Grid.radialOf
  rw [hfd]
  exact ⟨_, rfl⟩

/-- the three theorems below in one -/
theorem locality {S : ℕ → ℕ → Prop} {N : ℕ} (hs : ∀ k < 4 * N, ∀ i j, i < P.nx → j < P.nx → S (k + 1) i → NearShell P.nx i j → S k j)
    (hf : SameOn g.d (S 0) f₁.n f₂.n) (hp : SameOn g.d (S 0) p₁.n p₂.n) :
    ∃ a₁ a₂ F₁ F₂ Q₁ Q₂, evolve g J₁ e₁ f₁ p₁ N = .ok (a₁, F₁, Q₁) ∧ evolve g J₂ e₂ f₂ p₂ N = .ok (a₂, F₂, Q₂) ∧
      SameOn g.d (S (4 * N)) F₁.n F₂.n ∧ SameOn g.d (S (4 * N)) Q₁.n Q₂.n := by
  obtain ⟨fd, hr⟩ := radial_fd hS hfd
  have hn : g.d.nx = P.nx := by rw [hS.dims]
  rw [← hn] at hs
  obtain ⟨s, F, Q, a1, _, _, _, a5, a6⟩ := evolve_eq hS he₁ J₁ hf₁ hp₁ N
  obtain ⟨t, F', Q', b1, _, _, _, b5, b6⟩ := evolve_eq hS he₂ J₂ hf₂ hp₂ N
  obtain ⟨c, d⟩ := SameOn.evo (e := e₁) hS.wf hr hs hf hp
  refine ⟨_, _, F, F', Q, Q', a1, b1, ?_, ?_⟩
  · rw [a5, b5, evoP_of hS he₂ he₁]; exact c
  · rw [a6, b6, evoP_of hS he₂ he₁]; exact d

/-- **C100.** With finite differences, two evolutions whose states agree on the shells from `a` to `b` agree after `N` steps, bit for bit and in any
arithmetic, on the shells from `a+12N` to `b-12N`, whatever is elsewhere. -/
theorem C100_window (a b N : ℕ) (hb : b < P.nx) (hf : SameOn g.d (fun ix => a ≤ ix ∧ ix ≤ b) f₁.n f₂.n)
    (hp : SameOn g.d (fun ix => a ≤ ix ∧ ix ≤ b) p₁.n p₂.n) :
    ∃ a₁ a₂ F₁ F₂ Q₁ Q₂, evolve g J₁ e₁ f₁ p₁ N = .ok (a₁, F₁, Q₁) ∧ evolve g J₂ e₂ f₂ p₂ N = .ok (a₂, F₂, Q₂) ∧
      SameOn g.d (fun ix => a + 12 * N ≤ ix ∧ ix + 12 * N ≤ b) F₁.n F₂.n ∧ SameOn g.d (fun ix => a + 12 * N ≤ ix ∧ ix + 12 * N ≤ b) Q₁.n Q₂.n := by
  obtain ⟨a₁, a₂, F₁, F₂, Q₁, Q₂, h1, h2, h3, h4⟩ := locality hS hfd he₁ he₂ hf₁ hp₁ hf₂ hp₂ J₁ J₂ (N := N)
    (S := fun k ix => a + 3 * k ≤ ix ∧ ix + 3 * k ≤ b) (by
      intro k hk i j hi hj hS hn
      unfold NearShell at hn
      omega) hf hp
  have hm : ∀ i, i < g.d.nx → (a + 12 * N ≤ i ∧ i + 12 * N ≤ b) → (a + 3 * (4 * N) ≤ i ∧ i + 3 * (4 * N) ≤ b) := fun i _ h => by omega
  exact ⟨a₁, a₂, F₁, F₂, Q₁, Q₂, h1, h2, h3.mono hm, h4.mono hm⟩

/-- **C100.** What is inside shell `a` moves outwards by at most twelve shells per step (also over the outer boundary's one-sided stencils). -/
theorem C100_outer (a N : ℕ) (ha : a + 12 * N + 8 ≤ P.nx) (hf : SameOn g.d (fun ix => a ≤ ix) f₁.n f₂.n) (hp : SameOn g.d (fun ix => a ≤ ix) p₁.n p₂.n) :
    ∃ a₁ a₂ F₁ F₂ Q₁ Q₂, evolve g J₁ e₁ f₁ p₁ N = .ok (a₁, F₁, Q₁) ∧ evolve g J₂ e₂ f₂ p₂ N = .ok (a₂, F₂, Q₂) ∧
      SameOn g.d (fun ix => a + 12 * N ≤ ix) F₁.n F₂.n ∧ SameOn g.d (fun ix => a + 12 * N ≤ ix) Q₁.n Q₂.n := by
  obtain ⟨a₁, a₂, F₁, F₂, Q₁, Q₂, h1, h2, h3, h4⟩ := locality hS hfd he₁ he₂ hf₁ hp₁ hf₂ hp₂ J₁ J₂ (N := N)
    (S := fun k ix => a + 3 * k ≤ ix) (by
      intro k hk i j hi hj hS hn
      unfold NearShell at hn
      omega) hf hp
  have hm : ∀ i, i < g.d.nx → (a + 12 * N ≤ i) → (a + 3 * (4 * N) ≤ i) := fun i _ h => by omega
  exact ⟨a₁, a₂, F₁, F₂, Q₁, Q₂, h1, h2, h3.mono hm, h4.mono hm⟩

/-- **C100.** What is outside shell `b` moves inwards by at most twelve shells per step (also over the inner boundary's one-sided stencils). -/
theorem C100_inner (b N : ℕ) (hb : 12 * N + 7 ≤ b) (hf : SameOn g.d (fun ix => ix ≤ b) f₁.n f₂.n)
    (hp : SameOn g.d (fun ix => ix ≤ b) p₁.n p₂.n) :
    ∃ a₁ a₂ F₁ F₂ Q₁ Q₂, evolve g J₁ e₁ f₁ p₁ N = .ok (a₁, F₁, Q₁) ∧ evolve g J₂ e₂ f₂ p₂ N = .ok (a₂, F₂, Q₂) ∧
      SameOn g.d (fun ix => ix + 12 * N ≤ b) F₁.n F₂.n ∧ SameOn g.d (fun ix => ix + 12 * N ≤ b) Q₁.n Q₂.n := by
  obtain ⟨a₁, a₂, F₁, F₂, Q₁, Q₂, h1, h2, h3, h4⟩ := locality hS hfd he₁ he₂ hf₁ hp₁ hf₂ hp₂ J₁ J₂ (N := N)
    (S := fun k ix => ix + 3 * k ≤ b) (by
      intro k hk i j hi hj hS hn
      unfold NearShell at hn
      omega) hf hp
  have hm : ∀ i, i < g.d.nx → (i + 12 * N ≤ b) → (i + 3 * (4 * N) ≤ b) := fun i _ h => by omega
  exact ⟨a₁, a₂, F₁, F₂, Q₁, Q₂, h1, h2, h3.mono hm, h4.mono hm⟩

omit hf₁ hp₁ hf₂ hp₂ in
/-- **C100.** The density at a shell depends on the state at shells at most three away (away from the ends). -/
theorem C100_density {F₁ Q₁ F₂ Q₂ rho₁ rho₂ : List α} (J₁ J₂ : Junk (Cx α)) (hF₁ : F₁.length = P.nx * P.nlat * P.nphi)
    (hQ₁ : Q₁.length = P.nx * P.nlat * P.nphi) (hF₂ : F₂.length = P.nx * P.nlat * P.nphi) (hQ₂ : Q₂.length = P.nx * P.nlat * P.nphi)
    (hr₁ : rho₁.length = P.nx * P.nlat * P.nphi) (hr₂ : rho₂.length = P.nx * P.nlat * P.nphi) (a b : ℕ) (hb : b < P.nx)
    (hf : SameOn g.d (fun ix => a ≤ ix ∧ ix ≤ b) F₁ F₂) (hp : SameOn g.d (fun ix => a ≤ ix ∧ ix ≤ b) Q₁ Q₂) :
    ∃ a₁ a₂ r₁ r₂, e₁.set_rho g J₁ F₁ Q₁ rho₁ = .ok (a₁, r₁) ∧ e₂.set_rho g J₂ F₂ Q₂ rho₂ = .ok (a₂, r₂) ∧
      SameOn g.d (fun ix => a + 3 ≤ ix ∧ ix + 3 ≤ b) r₁ r₂ := by
  have ht := hS.total
  rw [← ht] at hF₁ hQ₁ hF₂ hQ₂ hr₁ hr₂
  have hn : g.d.nx = P.nx := by rw [hS.dims]
  have hw := hS.wf
  obtain ⟨fd, hr⟩ := radial_fd hS hfd
  refine ⟨_, _, _, _, Eom.set_rho_eq hw (he₁.wf hS) J₁ hF₁ hQ₁ hr₁, Eom.set_rho_eq hw (he₂.wf hS) J₂ hF₂ hQ₂ hr₂, ?_⟩
  obtain ⟨e, s, x1, -, rfl⟩ := he₁
  obtain ⟨e', t, y1, -, rfl⟩ := he₂
  rw [x1] at y1
  cases y1
  show SameOn g.d _ (e.rhoP g F₁ Q₁) (e.rhoP g F₂ Q₂)
  have hs : ∀ i j, i < g.d.nx → j < g.d.nx → (a + 3 ≤ i ∧ i + 3 ≤ b) → NearShell g.d.nx i j → (a ≤ j ∧ j ≤ b) := by
    intro i j hi hj h hn'
    unfold NearShell at hn'
    omega
  have hm : ∀ i, i < g.d.nx → (a + 3 ≤ i ∧ i + 3 ≤ b) → (a ≤ i ∧ i ≤ b) := fun i _ h => by omega
  have a1 := hf.prP hw hr (S' := fun ix => a + 3 ≤ ix ∧ ix + 3 ≤ b) hs
  have a2 : SameOn g.d (fun ix => a + 3 ≤ ix ∧ ix + 3 ≤ b) (g.pphiP F₁) (g.pphiP F₂) := (hf.mono hm).shells hw g.sphere.phiP
  have a3 : SameOn g.d (fun ix => a + 3 ≤ ix ∧ ix + 3 ≤ b) (g.psphXP F₁) (g.psphXP F₂) := (hf.mono hm).shells hw g.sphere.sphXP
  have a4 : SameOn g.d (fun ix => a + 3 ≤ ix ∧ ix + 3 ≤ b) F₁ F₂ := hf.mono hm
  have a5 : SameOn g.d (fun ix => a + 3 ≤ ix ∧ ix + 3 ≤ b) Q₁ Q₂ := hp.mono hm
  intro ix it ip x y z hs
  replace a1 := a1 ix it ip x y z hs
  replace a2 := a2 ix it ip x y z hs
  replace a3 := a3 ix it ip x y z hs
  replace a4 := a4 ix it ip x y z hs
  replace a5 := a5 ix it ip x y z hs
  have hl := hw.ok.idx3_lt ⟨x, y, z⟩
  unfold Dims.at3 at *
  unfold Eom.rhoP
  rw [gv_tab hl, gv_tab hl, a1, a2, a3, a4, a5]

end

section
variable {E : Env CR} {P : ParamRec CR} {g : Grid CR} {q : Phys} {x : ℕ → ℝ} {A : ℕ → ℕ → ℕ → ℝ} {e : Eom CR}

/-- **C100.** A pulse's front: where the field vanished beyond shell `a`, it vanishes beyond shell `a+12N` after `N` steps. -/
theorem C100_front (h : Exact E P g q x A) (hfd : E.useCheb = false) (he : Eom.Of g P e) (ho : q.Ok) (h0 : 0 < q.lo)
    (h1 : q.lo < q.up) (h2 : q.up ≤ q.L) (hk : q.k0 + q.km1 ≠ 0) (J : ℕ → Junk (Cx CR)) {f p : Field CR}
    (hf : f.Sized (P.nx * P.nlat * P.nphi)) (hp : p.Sized (P.nx * P.nlat * P.nphi)) (a N : ℕ) (ha : a + 12 * N + 8 ≤ P.nx)
    (hF : ∀ ix it ip, ix < P.nx → it < P.nlat → ip < P.nphi → a ≤ ix → g.d.at3 f.n ix it ip = fin 0 ∧ g.d.at3 p.n ix it ip = fin 0) :
    ∃ e' F Q, evolve g J e f p N = .ok (e', F, Q) ∧
      ∀ ix it ip, ix < P.nx → it < P.nlat → ip < P.nphi → a + 12 * N ≤ ix → g.d.at3 F.n ix it ip = fin 0 ∧ g.d.at3 Q.n ix it ip = fin 0 := by
  have hS := h.setup
  have hd : g.d.nx = P.nx ∧ g.d.nlat = P.nlat ∧ g.d.nphi = P.nphi := by rw [hS.dims]; exact ⟨rfl, rfl, rfl⟩
  have ht := hS.total
  have hz : ∀ {v : List CR}, (∀ i, i < P.nx * P.nlat * P.nphi → gv v i = fin 0) → ∀ ix it ip, ix < P.nx → it < P.nlat → ip < P.nphi →
      g.d.at3 v ix it ip = fin 0 := by
    intro v hv ix it ip a b c
    unfold Dims.at3
    refine hv _ ?_
    rw [← ht]
    exact hS.wf.ok.idx3_lt (hS.inR a b c)
  have zs : (Field.mk' "z" (P.nx * P.nlat * P.nphi) (fin 0)).Sized (P.nx * P.nlat * P.nphi) := by
    unfold Field.mk' Field.Sized
    simp
  have z0 : ∀ i, i < P.nx * P.nlat * P.nphi → gv (Field.mk' "z" (P.nx * P.nlat * P.nphi) (fin 0)).n i = fin 0 := by
    intro i hi
    unfold Field.mk' gv
    simp [List.getElem?_replicate, hi]
  obtain ⟨a2, F2, Q2, b1, -, -, b2, b3⟩ := C48_vacuum_stays h he ho h0 h1 h2 hk J zs zs z0 z0 N
  obtain ⟨a1, a2', F1, F2', Q1, Q2', c1, c2, c3, c4⟩ := C100_outer hS hfd he he hf hp zs zs J J a N ha
    (fun ix it ip x y z hs => by rw [hd.1] at x; rw [hd.2.1] at y; rw [hd.2.2] at z; rw [(hF ix it ip x y z hs).1, hz z0 ix it ip x y z])
    (fun ix it ip x y z hs => by rw [hd.1] at x; rw [hd.2.1] at y; rw [hd.2.2] at z; rw [(hF ix it ip x y z hs).2, hz z0 ix it ip x y z])
  rw [b1] at c2
  injection c2 with c2
  injection c2 with _ c2
  injection c2 with e1 e2
  subst e1 e2
  refine ⟨a1, F1, Q1, c1, fun ix it ip x y z hs => ?_⟩
  have x' := x; have y' := y; have z' := z
  rw [← hd.1] at x'; rw [← hd.2.1] at y'; rw [← hd.2.2] at z'
  rw [c3 ix it ip x' y' z' hs, c4 ix it ip x' y' z' hs]
  exact ⟨hz b2 ix it ip x y z, hz b3 ix it ip x y z⟩

end

/-- Non-vacuity of C100_window, C100_outer, C100_inner, C100_density: states that differ on the innermost (or outermost) shells only. -/
example : ∃ (E : Env CR) (g : Grid CR) (e : Eom CR) (f₁ f₂ f₃ : Field CR), Setup E demoP g ∧ E.useCheb = false ∧ Eom.Of g demoP e ∧
    f₁.Sized (demoP.nx * demoP.nlat * demoP.nphi) ∧ f₂.Sized (demoP.nx * demoP.nlat * demoP.nphi) ∧ f₃.Sized (demoP.nx * demoP.nlat * demoP.nphi) ∧
    SameOn g.d (fun ix => 4 ≤ ix) f₁.n f₂.n ∧ SameOn g.d (fun ix => ix ≤ 28) f₁.n f₃.n ∧ SameOn g.d (fun ix => 4 ≤ ix ∧ ix ≤ 28) f₂.n f₃.n ∧
    g.d.at3 f₁.n 3 0 0 ≠ g.d.at3 f₂.n 3 0 0 ∧ g.d.at3 f₁.n 29 0 0 ≠ g.d.at3 f₃.n 29 0 0 ∧ 4 + 12 * 1 + 8 ≤ demoP.nx ∧ 12 * 1 + 7 ≤ 28 := by
  obtain ⟨E, x, A, g, e, h1, h2, h3, h4, h5, h6, h7⟩ := demo_setup true false false
  have hd : g.d.nx = 33 ∧ g.d.nlat = 8 ∧ g.d.nphi = 16 := by rw [h5.dims]; exact ⟨rfl, rfl, rfl⟩
  have sized : ∀ F : ℕ → ℕ → ℕ → CR, ({ Field.mk' "f" (demoP.nx * demoP.nlat * demoP.nphi) (fin 1) with n := g.d.mk3 F } : Field CR).Sized
      (demoP.nx * demoP.nlat * demoP.nphi) := by
    intro F
    obtain ⟨_, b, c, d, e⟩ := (C47_construction "f" (demoP.nx * demoP.nlat * demoP.nphi) (fin 1)).1
    exact ⟨by rw [← h5.total]; exact Dims.mk3_length F, b, c, d, e⟩
  have at3 : ∀ F : ℕ → ℕ → ℕ → CR, ∀ ix it ip, ix < 33 → it < 8 → ip < 16 → g.d.at3 (g.d.mk3 F) ix it ip = F ix it ip := fun F ix it ip a b c =>
    h5.wf.ok.at3_mk3 (h5.inR a b c)
  refine ⟨E, g, e, { Field.mk' "f" (demoP.nx * demoP.nlat * demoP.nphi) (fin 1) with n := g.d.mk3 fun _ _ _ => fin 1 },
    { Field.mk' "f" (demoP.nx * demoP.nlat * demoP.nphi) (fin 1) with n := g.d.mk3 fun ix _ _ => if ix < 4 then fin 2 else fin 1 },
    { Field.mk' "f" (demoP.nx * demoP.nlat * demoP.nphi) (fin 1) with n := g.d.mk3 fun ix _ _ => if 28 < ix then fin 2 else fin 1 },
    h5, h3, h7, sized _, sized _, sized _, ?_, ?_, ?_, ?_, ?_, by decide, by decide⟩
  · intro ix it ip a b c d
    rw [hd.1] at a; rw [hd.2.1] at b; rw [hd.2.2] at c
    dsimp only
    rw [at3 _ _ _ _ a b c, at3 _ _ _ _ a b c, if_neg (by omega)]
  · intro ix it ip a b c d
    rw [hd.1] at a; rw [hd.2.1] at b; rw [hd.2.2] at c
    dsimp only
    rw [at3 _ _ _ _ a b c, at3 _ _ _ _ a b c, if_neg (by omega)]
  · intro ix it ip a b c d
    rw [hd.1] at a; rw [hd.2.1] at b; rw [hd.2.2] at c
    dsimp only
    rw [at3 _ _ _ _ a b c, at3 _ _ _ _ a b c, if_neg (by omega), if_neg (by omega)]
  · dsimp only
    rw [at3 _ _ _ _ (by omega) (by omega) (by omega), at3 _ _ _ _ (by omega) (by omega) (by omega), if_pos (by omega)]
    intro h
    injection h with h
    norm_num at h
  · dsimp only
    rw [at3 _ _ _ _ (by omega) (by omega) (by omega), at3 _ _ _ _ (by omega) (by omega) (by omega), if_pos (by omega)]
    intro h
    injection h with h
    norm_num at h

/-- Non-vacuity of C100_front: a field that vanishes from shell 4 on, and not inside. -/
example : ∃ (E : Env CR) (x : ℕ → ℝ) (A : ℕ → ℕ → ℕ → ℝ) (g : Grid CR) (e : Eom CR) (f p : Field CR), Exact E demoP g demoQ x A ∧ E.useCheb = false ∧
    Eom.Of g demoP e ∧ demoP.nm = demoP.nl ∧ demoQ.Ok ∧ 0 < demoQ.lo ∧ demoQ.lo < demoQ.up ∧ demoQ.up ≤ demoQ.L ∧ demoQ.k0 + demoQ.km1 ≠ 0 ∧
    f.Sized (demoP.nx * demoP.nlat * demoP.nphi) ∧ p.Sized (demoP.nx * demoP.nlat * demoP.nphi) ∧ 4 + 12 * 1 + 8 ≤ demoP.nx ∧
    (∀ ix it ip, ix < demoP.nx → it < demoP.nlat → ip < demoP.nphi → 4 ≤ ix → g.d.at3 f.n ix it ip = fin 0 ∧ g.d.at3 p.n ix it ip = fin 0) ∧
    g.d.at3 f.n 2 1 1 = fin 3 := by
  obtain ⟨E, x, A, g, e, h1, h2, h3, h4, h5, h6, h7⟩ := demo_setup true false false
  have hlo : compR 100 (9/10) = 900 / 1009 := by unfold compR; norm_num
  have sized : ∀ F : ℕ → ℕ → ℕ → CR, ({ Field.mk' "f" (demoP.nx * demoP.nlat * demoP.nphi) (fin 1) with n := g.d.mk3 F } : Field CR).Sized
      (demoP.nx * demoP.nlat * demoP.nphi) := by
    intro F
    obtain ⟨_, b, c, d, e⟩ := (C47_construction "f" (demoP.nx * demoP.nlat * demoP.nphi) (fin 1)).1
    exact ⟨by rw [← h5.total]; exact Dims.mk3_length F, b, c, d, e⟩
  have at3 : ∀ F : ℕ → ℕ → ℕ → CR, ∀ ix it ip, ix < 33 → it < 8 → ip < 16 → g.d.at3 (g.d.mk3 F) ix it ip = F ix it ip := fun F ix it ip a b c =>
    h5.wf.ok.at3_mk3 (h5.inR a b c)
  refine ⟨E, x, A, g, e, { Field.mk' "f" (demoP.nx * demoP.nlat * demoP.nphi) (fin 1) with n := g.d.mk3 fun ix _ _ => if ix < 4 then fin 3 else fin 0 },
    { Field.mk' "f" (demoP.nx * demoP.nlat * demoP.nphi) (fin 1) with n := g.d.mk3 fun ix _ _ => if ix < 4 then fin 3 else fin 0 },
    ⟨h5, h4, by constructor <;> rfl, ?_, ?_⟩, h3, h7, rfl, demo_ok, ?_, ?_, ?_, ?_, sized _, sized _, by decide, ?_, ?_⟩
  any_goals (simp only [demoQ, hlo] <;> norm_num; done)
  · intro ix it ip a b c d
    dsimp only
    rw [at3 _ _ _ _ a b c, if_neg (by omega)]
    exact ⟨rfl, rfl⟩
  · dsimp only
    rw [at3 _ _ _ _ (by omega) (by omega) (by omega), if_pos (by omega)]

end SFK
