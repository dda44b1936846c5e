import Verif.Model.FP
import Verif.Lemmas.CR
import Mathlib.Analysis.Asymptotics.Lemmas
import Mathlib.Analysis.Calculus.FDeriv.Basic
import Mathlib.Analysis.SpecialFunctions.Sqrt
import Mathlib.Analysis.SpecialFunctions.ExpDeriv
import Mathlib.Analysis.SpecialFunctions.Trigonometric.InverseDeriv
import Mathlib.Analysis.SpecialFunctions.Trigonometric.Deriv
import Mathlib.Analysis.SpecialFunctions.Log.Deriv
import Mathlib.Analysis.Calculus.Deriv.Inv
/-
Families of floating-point computations in finer and finer formats: a computed value that converges to the exact one with an
error `O(eps)`, and the rules with which this is propagated through the operations.
-/
namespace SFK
open Scalar CR Filter Asymptotics Topology

variable {ι : Type*} {l : Filter ι} {φ : ι → Format}

/-- the formats get finer and larger along `l` -/
structure Fine (l : Filter ι) (φ : ι → Format) : Prop where
  eps : Tendsto (fun i => (φ i).eps) l (𝓝 0)
  omega : Tendsto (fun i => (φ i).Omega) l atTop

/-- the computed values `x i` are finite and converge to `r` with an error `O(eps)` -/
def Conv (l : Filter ι) (φ : ι → Format) (x : ∀ i, (φ i).T) (r : ℝ) : Prop :=
  ∃ a : ι → ℝ, (∀ᶠ i in l, (φ i).val (x i) = some (a i)) ∧ (fun i => a i - r) =O[l] fun i => (φ i).eps

/-- the computed values converge to the exact value, if that is finite -/
def Near (l : Filter ι) (φ : ι → Format) (x : ∀ i, (φ i).T) (X : CR) : Prop := ∀ r, X = fin r → Conv l φ x r

theorem Conv.near {x : ∀ i, (φ i).T} {r : ℝ} (h : Conv l φ x r) : Near l φ x (fin r) := fun s hs => by
  rw [fin_inj] at hs; exact hs ▸ h

theorem Near.bad (x : ∀ i, (φ i).T) : Near l φ x bad := fun _ h => by cases h

section rules
variable (hF : Fine l φ)
include hF

theorem tendsto_of_isBigO {a : ι → ℝ} {r : ℝ} (h : (fun i => a i - r) =O[l] fun i => (φ i).eps) : Tendsto a l (𝓝 r) := by
  have := h.trans_tendsto hF.eps
  simpa using this.add_const r

theorem Conv.round {z : ∀ i, (φ i).T} {c : ι → ℝ} {t : ℝ}
    (hz : ∀ᶠ i in l, Rounds (φ i).val (φ i).eps (φ i).Omega (z i) (c i)) (hc : (fun i => c i - t) =O[l] fun i => (φ i).eps) :
    Conv l φ z t := by
  have ht := tendsto_of_isBigO hF hc
  have hb : ∀ᶠ i in l, |c i| ≤ (φ i).Omega := by
    have h1 : ∀ᶠ i in l, |c i| < |t| + 1 := ht.abs.eventually (gt_mem_nhds (by linarith))
    filter_upwards [h1, hF.omega.eventually_ge_atTop (|t| + 1)] with i a b
    linarith
  have hex : ∀ᶠ i in l, ∃ y, (φ i).val (z i) = some y ∧ |y - c i| ≤ (φ i).eps * (1 + |c i|) := by
    filter_upwards [hz, hb] with i a b using a b
  classical
  let a : ι → ℝ := fun i => if h : ∃ y, (φ i).val (z i) = some y ∧ |y - c i| ≤ (φ i).eps * (1 + |c i|) then h.choose else 0
  have ha : ∀ᶠ i in l, (φ i).val (z i) = some (a i) ∧ |a i - c i| ≤ (φ i).eps * (1 + |c i|) := by
    filter_upwards [hex] with i h
    simp only [a, dif_pos h]
    exact h.choose_spec
  refine ⟨a, ha.mono fun _ h => h.1, ?_⟩
  have h2 : (fun i => a i - c i) =O[l] fun i => (φ i).eps := by
    have h3 : (fun i => a i - c i) =O[l] fun i => (φ i).eps * (1 + |c i|) := by
      refine IsBigO.of_bound 1 (ha.mono fun i h => ?_)
      rw [Real.norm_eq_abs, Real.norm_eq_abs, one_mul]
      exact h.2.trans (le_abs_self _)
    have h4 : (fun i => (1 + |c i|)) =O[l] fun _ => (1 : ℝ) := (ht.abs.const_add 1).isBigO_one ℝ
    simpa using h3.trans ((isBigO_refl (fun i => (φ i).eps) l).mul h4)
  simpa using h2.add hc

/-- a differentiable function of one argument -/
theorem isBigO_comp {f : ℝ → ℝ} {r : ℝ} (hf : DifferentiableAt ℝ f r) {a : ι → ℝ} (ha : (fun i => a i - r) =O[l] fun i => (φ i).eps) :
    (fun i => f (a i) - f r) =O[l] fun i => (φ i).eps :=
  (hf.isBigO_sub.comp_tendsto (tendsto_of_isBigO hF ha)).trans ha

theorem Conv.map {x : ∀ i, (φ i).T} {z : ∀ i, (φ i).T} {f : ℝ → ℝ} {r : ℝ} (hx : Conv l φ x r) (hf : DifferentiableAt ℝ f r)
    (hz : ∀ᶠ i in l, ∀ a, (φ i).val (x i) = some a → Rounds (φ i).val (φ i).eps (φ i).Omega (z i) (f a)) : Conv l φ z (f r) := by
  obtain ⟨a, h1, h2⟩ := hx
  refine Conv.round hF (c := fun i => f (a i)) ?_ (isBigO_comp hF hf h2)
  filter_upwards [h1, hz] with i k1 k2 using k2 _ k1

theorem Conv.eventually {x : ∀ i, (φ i).T} {r : ℝ} (hx : Conv l φ x r) {p : ℝ → Prop} (hp : ∀ᶠ y in 𝓝 r, p y) :
    ∀ᶠ i in l, ∀ a, (φ i).val (x i) = some a → p a := by
  obtain ⟨a, h1, h2⟩ := hx
  filter_upwards [h1, (tendsto_of_isBigO hF h2).eventually hp] with i k1 k2 b hb
  rw [k1] at hb
  cases hb
  exact k2

theorem Conv.add {x y : ∀ i, (φ i).T} {r s : ℝ} (hx : Conv l φ x r) (hy : Conv l φ y s) : Conv l φ (fun i => x i + y i) (r + s) := by
  obtain ⟨a, h1, h2⟩ := hx
  obtain ⟨b, k1, k2⟩ := hy
  refine Conv.round hF (c := fun i => a i + b i) ?_ ?_
  · filter_upwards [h1, k1] with i u v using (φ i).faithful.add _ _ _ _ u v
  · exact (h2.add k2).congr_left fun i => by ring

theorem Conv.sub {x y : ∀ i, (φ i).T} {r s : ℝ} (hx : Conv l φ x r) (hy : Conv l φ y s) : Conv l φ (fun i => x i - y i) (r - s) := by
  obtain ⟨a, h1, h2⟩ := hx
  obtain ⟨b, k1, k2⟩ := hy
  refine Conv.round hF (c := fun i => a i - b i) ?_ ?_
  · filter_upwards [h1, k1] with i u v using (φ i).faithful.sub _ _ _ _ u v
  · exact (h2.sub k2).congr_left fun i => by ring

theorem isBigO_mul {a b : ι → ℝ} {r s : ℝ} (h : (fun i => a i - r) =O[l] fun i => (φ i).eps) (k : (fun i => b i - s) =O[l] fun i => (φ i).eps) :
    (fun i => a i * b i - r * s) =O[l] fun i => (φ i).eps := by
  have hb : b =O[l] fun _ => (1 : ℝ) := (tendsto_of_isBigO hF k).isBigO_one ℝ
  have h1 : (fun i => (a i - r) * b i) =O[l] fun i => (φ i).eps := by simpa using h.mul hb
  have h2 : (fun i => r * (b i - s)) =O[l] fun i => (φ i).eps := k.const_mul_left r
  exact (h1.add h2).congr_left fun i => by ring

theorem Conv.mul {x y : ∀ i, (φ i).T} {r s : ℝ} (hx : Conv l φ x r) (hy : Conv l φ y s) : Conv l φ (fun i => x i * y i) (r * s) := by
  obtain ⟨a, h1, h2⟩ := hx
  obtain ⟨b, k1, k2⟩ := hy
  refine Conv.round hF (c := fun i => a i * b i) ?_ (isBigO_mul hF h2 k2)
  filter_upwards [h1, k1] with i u v using (φ i).faithful.mul _ _ _ _ u v

theorem Conv.div {x y : ∀ i, (φ i).T} {r s : ℝ} (hx : Conv l φ x r) (hy : Conv l φ y s) (hs : s ≠ 0) :
    Conv l φ (fun i => x i / y i) (r / s) := by
  obtain ⟨a, h1, h2⟩ := hx
  obtain ⟨b, k1, k2⟩ := hy
  refine Conv.round hF (c := fun i => a i / b i) ?_ ?_
  · have hne : ∀ᶠ i in l, b i ≠ 0 := (tendsto_of_isBigO hF k2).eventually (isOpen_ne.mem_nhds hs)
    filter_upwards [h1, k1, hne] with i u v w using (φ i).faithful.div _ _ _ _ u v w
  · have h3 : (fun i => (b i)⁻¹ - s⁻¹) =O[l] fun i => (φ i).eps := isBigO_comp hF (f := fun x => x⁻¹) (differentiableAt_inv hs) k2
    simpa only [div_eq_mul_inv] using isBigO_mul hF h2 h3

omit hF in
theorem Conv.exact {x z : ∀ i, (φ i).T} {f : ℝ → ℝ} {r : ℝ} (hx : Conv l φ x r)
    (hz : ∀ i a, (φ i).val (x i) = some a → (φ i).val (z i) = some (f a)) (hl : ∀ a b, |f a - f b| ≤ |a - b|) : Conv l φ z (f r) := by
  obtain ⟨a, h1, h2⟩ := hx
  refine ⟨fun i => f (a i), h1.mono fun i h => hz i _ h, ?_⟩
  exact IsBigO.trans (IsBigO.of_bound 1 (Eventually.of_forall fun i => by simpa using hl _ _)) h2

omit hF in
theorem Conv.neg {x : ∀ i, (φ i).T} {r : ℝ} (hx : Conv l φ x r) : Conv l φ (fun i => -x i) (-r) :=
  hx.exact (f := fun a => -a) (fun i a h => (φ i).faithful.neg _ _ h) (fun a b => by rw [neg_sub_neg, abs_sub_comm])

omit hF in
theorem Conv.fabs {x : ∀ i, (φ i).T} {r : ℝ} (hx : Conv l φ x r) : Conv l φ (fun i => Scalar.fabs (x i)) |r| :=
  hx.exact (f := fun a => |a|) (fun i a h => (φ i).faithful.fabs _ _ h) (fun a b => abs_abs_sub_abs_le _ _)

theorem Conv.lit (q : ℚ) : Conv l φ (fun i => (Scalar.lit q : (φ i).T)) (q : ℝ) :=
  Conv.round hF (c := fun _ => (q : ℝ)) (Eventually.of_forall fun i => (φ i).faithful.lit q) (by simp [isBigO_zero])

theorem Conv.pi : Conv l φ (fun i => (Scalar.pi : (φ i).T)) Real.pi :=
  Conv.round hF (c := fun _ => Real.pi) (Eventually.of_forall fun i => (φ i).faithful.pi) (by simp [isBigO_zero])

theorem Conv.pown {x : ∀ i, (φ i).T} {r : ℝ} (hx : Conv l φ x r) (k : ℕ) : Conv l φ (fun i => Scalar.pown (x i) k) (r ^ k) :=
  Conv.map hF hx (f := fun y => y ^ k) (by fun_prop) (Eventually.of_forall fun i a h => (φ i).faithful.pown _ _ _ h)

theorem Conv.exp {x : ∀ i, (φ i).T} {r : ℝ} (hx : Conv l φ x r) : Conv l φ (fun i => Scalar.exp (x i)) (Real.exp r) :=
  Conv.map hF hx Real.differentiableAt_exp (Eventually.of_forall fun i a h => (φ i).faithful.exp _ _ h)

theorem Conv.cos {x : ∀ i, (φ i).T} {r : ℝ} (hx : Conv l φ x r) : Conv l φ (fun i => Scalar.cos (x i)) (Real.cos r) :=
  Conv.map hF hx Real.differentiableAt_cos (Eventually.of_forall fun i a h => (φ i).faithful.cos _ _ h)

theorem Conv.sin {x : ∀ i, (φ i).T} {r : ℝ} (hx : Conv l φ x r) : Conv l φ (fun i => Scalar.sin (x i)) (Real.sin r) :=
  Conv.map hF hx Real.differentiableAt_sin (Eventually.of_forall fun i a h => (φ i).faithful.sin _ _ h)

theorem Conv.rt {x : ∀ i, (φ i).T} {r : ℝ} (hx : Conv l φ x r) (hr : 0 < r) : Conv l φ (fun i => Scalar.rt (x i)) (Real.sqrt r) :=
  Conv.map hF hx (Real.hasDerivAt_sqrt hr.ne').differentiableAt
    ((hx.eventually hF (lt_mem_nhds hr)).mono fun i h a ha => (φ i).faithful.rt _ _ ha (h a ha).le)

theorem Conv.log {x : ∀ i, (φ i).T} {r : ℝ} (hx : Conv l φ x r) (hr : 0 < r) : Conv l φ (fun i => Scalar.log (x i)) (Real.log r) :=
  Conv.map hF hx (Real.differentiableAt_log hr.ne')
    ((hx.eventually hF (lt_mem_nhds hr)).mono fun i h a ha => (φ i).faithful.log _ _ ha (h a ha))

theorem Conv.acos {x : ∀ i, (φ i).T} {r : ℝ} (hx : Conv l φ x r) (h1 : -1 < r) (h2 : r < 1) :
    Conv l φ (fun i => Scalar.acos (x i)) (Real.arccos r) :=
  Conv.map hF hx (Real.differentiableAt_arccos.mpr ⟨h1.ne', h2.ne⟩)
    ((hx.eventually hF (Ioo_mem_nhds h1 h2)).mono fun i h a ha => (φ i).faithful.acos _ _ ha (h a ha).1.le (h a ha).2.le)

/-- a comparison that is not an equality is decided the same way in fine formats -/
theorem Conv.lt {x y : ∀ i, (φ i).T} {r s : ℝ} (hx : Conv l φ x r) (hy : Conv l φ y s) (hrs : r ≠ s) :
    ∀ᶠ i in l, Scalar.lt (x i) (y i) = Scalar.lt (fin r) (fin s : CR) := by
  obtain ⟨a, h1, h2⟩ := hx
  obtain ⟨b, k1, k2⟩ := hy
  have ta := tendsto_of_isBigO hF h2
  have tb := tendsto_of_isBigO hF k2
  rcases lt_or_gt_of_ne hrs with h | h
  · filter_upwards [h1, k1, ta.eventually_lt tb h] with i u v w
    rw [(fin_lt r s).mpr h, ((φ i).faithful.lt _ _ _ _ u v).mpr w]
  · filter_upwards [h1, k1, tb.eventually_lt ta h] with i u v w
    rw [(fin_lt_false r s).mpr h.le, ← Bool.not_eq_true, (φ i).faithful.lt _ _ _ _ u v]
    exact not_lt.mpr w.le

omit hF in
/-- values that agree eventually -/
theorem Conv.congr {x z : ∀ i, (φ i).T} {r : ℝ} (hx : Conv l φ x r) (h : ∀ᶠ i in l, z i = x i) : Conv l φ z r := by
  obtain ⟨a, h1, h2⟩ := hx
  exact ⟨a, by filter_upwards [h1, h] with i u v using by rw [v]; exact u, h2⟩

/-! ## The same rules for exact values that may be `bad` -/

theorem Near.add {x y : ∀ i, (φ i).T} {X Y : CR} (hx : Near l φ x X) (hy : Near l φ y Y) : Near l φ (fun i => x i + y i) (X + Y) := by
  intro r hr
  obtain ⟨a, b, rfl, rfl, rfl⟩ := add_fin hr
  exact (hx _ rfl).add hF (hy _ rfl)

theorem Near.sub {x y : ∀ i, (φ i).T} {X Y : CR} (hx : Near l φ x X) (hy : Near l φ y Y) : Near l φ (fun i => x i - y i) (X - Y) := by
  intro r hr
  obtain ⟨a, b, rfl, rfl, rfl⟩ := sub_fin hr
  exact (hx _ rfl).sub hF (hy _ rfl)

theorem Near.mul {x y : ∀ i, (φ i).T} {X Y : CR} (hx : Near l φ x X) (hy : Near l φ y Y) : Near l φ (fun i => x i * y i) (X * Y) := by
  intro r hr
  obtain ⟨a, b, rfl, rfl, rfl⟩ := mul_fin hr
  exact (hx _ rfl).mul hF (hy _ rfl)

theorem Near.div {x y : ∀ i, (φ i).T} {X Y : CR} (hx : Near l φ x X) (hy : Near l φ y Y) : Near l φ (fun i => x i / y i) (X / Y) := by
  intro r hr
  obtain ⟨a, b, rfl, rfl, hb, rfl⟩ := div_fin hr
  exact (hx _ rfl).div hF (hy _ rfl) hb

omit hF in
theorem Near.neg {x : ∀ i, (φ i).T} {X : CR} (hx : Near l φ x X) : Near l φ (fun i => -x i) (-X) := by
  cases X with
  | bad => exact Near.bad _
  | fin r => exact (hx _ rfl).neg.near

omit hF in
theorem Near.fabs {x : ∀ i, (φ i).T} {X : CR} (hx : Near l φ x X) : Near l φ (fun i => Scalar.fabs (x i)) (Scalar.fabs X) := by
  cases X with
  | bad => exact Near.bad _
  | fin r => exact (hx _ rfl).fabs.near

theorem Near.pown {x : ∀ i, (φ i).T} {X : CR} (hx : Near l φ x X) (k : ℕ) : Near l φ (fun i => Scalar.pown (x i) k) (Scalar.pown X k) := by
  cases X with
  | bad => exact Near.bad _
  | fin r => exact ((hx _ rfl).pown hF k).near

theorem Near.exp {x : ∀ i, (φ i).T} {X : CR} (hx : Near l φ x X) : Near l φ (fun i => Scalar.exp (x i)) (Scalar.exp X) := by
  cases X with
  | bad => exact Near.bad _
  | fin r => exact ((hx _ rfl).exp hF).near

theorem Near.cos {x : ∀ i, (φ i).T} {X : CR} (hx : Near l φ x X) : Near l φ (fun i => Scalar.cos (x i)) (Scalar.cos X) := by
  cases X with
  | bad => exact Near.bad _
  | fin r => exact ((hx _ rfl).cos hF).near

theorem Near.sin {x : ∀ i, (φ i).T} {X : CR} (hx : Near l φ x X) : Near l φ (fun i => Scalar.sin (x i)) (Scalar.sin X) := by
  cases X with
  | bad => exact Near.bad _
  | fin r => exact ((hx _ rfl).sin hF).near

theorem Near.log {x : ∀ i, (φ i).T} {X : CR} (hx : Near l φ x X) : Near l φ (fun i => Scalar.log (x i)) (Scalar.log X) := by
  cases X with
  | bad => exact Near.bad _
  | fin r =>
    by_cases h : 0 < r
    · rw [fin_log _ h]; exact ((hx _ rfl).log hF h).near
    · have : (Scalar.log (fin r) : CR) = CR.bad := by
        show (open Classical in if r ≤ 0 then CR.bad else fin (Real.log r)) = _
        rw [if_pos (not_lt.mp h)]
      rw [this]; exact Near.bad _

/-- the square root needs an exact argument that is not zero -/
theorem Near.rt {x : ∀ i, (φ i).T} {X : CR} (hx : Near l φ x X) (h0 : X ≠ fin 0) : Near l φ (fun i => Scalar.rt (x i)) (Scalar.rt X) := by
  cases X with
  | bad => exact Near.bad _
  | fin r =>
    rcases lt_trichotomy r 0 with h | h | h
    · have : (Scalar.rt (fin r) : CR) = CR.bad := by
        show (open Classical in if r < 0 then CR.bad else fin (Real.sqrt r)) = _
        rw [if_pos h]
      rw [this]; exact Near.bad _
    · exact absurd (by rw [h]) h0
    · rw [fin_rt _ h.le]; exact ((hx _ rfl).rt hF h).near

theorem Near.lit (q : ℚ) : Near l φ (fun i => (Scalar.lit q : (φ i).T)) (Scalar.lit q : CR) := by
  rw [fin_lit]; exact (Conv.lit hF q).near

theorem Near.pi : Near l φ (fun i => (Scalar.pi : (φ i).T)) (Scalar.pi : CR) := by
  rw [fin_pi]; exact (Conv.pi hF).near

theorem Near.nat (n : ℕ) : Near l φ (fun i => @OfNat.ofNat (φ i).T n (instOfNatS n)) (@OfNat.ofNat CR n (instOfNatS n)) := Near.lit hF n
theorem Near.dbl (n : ℕ) : Near l φ (fun i => (dbl n : (φ i).T)) (dbl n : CR) := Near.lit hF n
theorem Near.tenth (n : ℕ) : Near l φ (fun i => (tenth n : (φ i).T)) (tenth n : CR) := Near.lit hF _
theorem Near.default : Near l φ (fun i => (default : (φ i).T)) (default : CR) := Near.lit hF 0

/-- a branch on a comparison that is not an equality -/
theorem Near.ite {x y : ∀ i, (φ i).T} {r s : ℝ} (hx : Conv l φ x r) (hy : Conv l φ y s) (hrs : r ≠ s) {u v : ∀ i, (φ i).T} {U V : CR}
    (hu : r < s → Near l φ u U) (hv : s < r → Near l φ v V) :
    Near l φ (fun i => if Scalar.lt (x i) (y i) then u i else v i) (if Scalar.lt (fin r) (fin s : CR) then U else V) := by
  have h := hx.lt hF hy hrs
  rcases lt_or_gt_of_ne hrs with k | k
  · have e : Scalar.lt (fin r) (fin s : CR) = true := (fin_lt r s).mpr k
    rw [e, if_pos rfl]
    intro t ht
    refine (hu k t ht).congr ?_
    filter_upwards [h] with i hi
    rw [hi, e, if_pos rfl]
  · have e : Scalar.lt (fin r) (fin s : CR) = false := (fin_lt_false r s).mpr k.le
    rw [e]
    intro t ht
    refine (hv k t ht).congr ?_
    filter_upwards [h] with i hi
    rw [hi, e]
    rfl

end rules

/-- decompose a goal `Near l φ (fun i => ...) ...` along the operations -/
macro "near" h:term : tactic => `(tactic| repeat' (first
  | assumption
  | exact Near.nat $h _
  | exact Near.lit $h _
  | exact Near.dbl $h _
  | exact Near.tenth $h _
  | exact Near.pi $h
  | apply Near.add $h
  | apply Near.sub $h
  | apply Near.mul $h
  | apply Near.div $h
  | apply Near.neg
  | apply Near.pown $h
  | apply Near.exp $h
  | apply Near.cos $h
  | apply Near.fabs
  | apply Near.sin $h))

end SFK
