import Verif.Lemmas.Spectral
import Verif.Props.Consistency
/-
C89: accuracy of the Chebyshev derivative.  C90: consistency of the Chebyshev semi-discretisation.  C91: order of the Chebyshev filter.
-/
namespace SFK
open Scalar CR Kerr Polynomial

section
variable {n : ℕ} {lo up : ℝ} {dct : List CR → List CR} {nd : Bool} {c : Cheb CR}

/-- C89: whatever the sampled function is, the first and the second derivative the Chebyshev grid computes (the second by
differentiating twice, as the solver does) are as good as polynomial approximation of the function by degree `n-3`, up to the factor
`4n³/(up-lo)` per differentiation: if a polynomial `Q` is within `δ` of the samples, the results are within that factor (squared) times `δ`
of `Q'` and `Q''`. -/
theorem C89_best_approximation (hn : 2 ≤ n) (hW : n < W) (hlu : lo < up) (hf : FftwOk n dct)
    (hc : Cheb.mk' n (fin lo) (fin up) dct true nd = .ok c) (u : ℕ → ℝ) {o o' : List CR} (ho : o.length = n) (ho' : o'.length = n) :
    ∃ w w2 : ℕ → ℝ, c.der (tab n fun i => fin (u i)) o = .ok (tab n fun i => fin (w i)) ∧
      c.der (tab n fun i => fin (w i)) o' = .ok (tab n fun i => fin (w2 i)) ∧
      ∀ (Q : ℝ[X]) (δ : ℝ), Q.degree < (n - 2 : ℕ) → (∀ i, i < n → |u i - Q.eval (chebPt n lo up i)| ≤ δ) → ∀ i, i < n →
        |w i - Q.derivative.eval (chebPt n lo up i)| ≤ 4 * (n : ℝ) ^ 3 / (up - lo) * δ ∧
        |w2 i - Q.derivative.derivative.eval (chebPt n lo up i)| ≤ (4 * (n : ℝ) ^ 3 / (up - lo)) ^ 2 * δ := by
  obtain ⟨a, ha⟩ := interp hn hlu u
  have e1 := C20_action hn hW hlu hf hc a ho
  have hu : (tab n fun i => fin (u i)) = tab n fun i => fin ((chebPoly n lo up a).eval (chebPt n lo up i)) :=
    tab_congr fun i hi => by rw [ha i hi]
  rw [← hu] at e1
  obtain ⟨w, hw⟩ : ∃ w : ℕ → ℝ, w = fun i => (derivative (chebPoly n lo up fun k => if k + 2 < n then a k else 0)).eval (chebPt n lo up i) :=
    ⟨_, rfl⟩
  have e1' : c.der (tab n fun i => fin (u i)) o = .ok (tab n fun i => fin (w i)) := by rw [e1, hw]
  obtain ⟨b, hb⟩ := interp hn hlu w
  have e2 := C20_action hn hW hlu hf hc b ho'
  have hu2 : (tab n fun i => fin (w i)) = tab n fun i => fin ((chebPoly n lo up b).eval (chebPt n lo up i)) :=
    tab_congr fun i hi => by rw [hb i hi]
  rw [← hu2] at e2
  obtain ⟨w2, hw2⟩ : ∃ w2 : ℕ → ℝ, w2 = fun i => (derivative (chebPoly n lo up fun k => if k + 2 < n then b k else 0)).eval (chebPt n lo up i) :=
    ⟨_, rfl⟩
  have e2' : c.der (tab n fun i => fin (w i)) o' = .ok (tab n fun i => fin (w2 i)) := by rw [e2, hw2]
  refine ⟨w, w2, e1', e2', fun Q δ hQ hδ => ?_⟩
  have same : ∀ {v v' : ℕ → ℝ}, (tab n fun i => fin (v i)) = (tab n fun i => fin (v' i)) → ∀ i, i < n → v i = v' i := by
    intro v v' h i hi
    have := congrArg (fun l => gv l i) h
    simp only [gv_tab hi, fin_inj] at this
    exact this
  obtain ⟨w', f1, f2⟩ := der_near hn hW hlu hf hc hQ hδ ho
  rw [e1'] at f1
  injection f1 with f1
  have f3 : ∀ i, i < n → |w i - Q.derivative.eval (chebPt n lo up i)| ≤ 4 * (n : ℝ) ^ 3 / (up - lo) * δ := fun i hi => by
    rw [same f1 i hi]; exact f2 i hi
  have hQ' : Q.derivative.degree < (n - 2 : ℕ) := lt_of_le_of_lt (degree_derivative_le) hQ
  obtain ⟨w2', g1, g2⟩ := der_near hn hW hlu hf hc hQ' f3 ho'
  rw [e2'] at g1
  injection g1 with g1
  refine fun i hi => ⟨f3 i hi, ?_⟩
  rw [same g1 i hi, sq, mul_assoc]
  exact g2 i hi

/-- how the operators act on samples of a function approximated by polynomials -/
theorem der_of_approx {ι : Type} {S : Set ι} {p : ℕ} {lo up : ℝ} (hlu : lo < up) {u u1 u2 : ι → ℝ → ℝ} (h : Approx2 lo up (p + 6) S u u1 u2) :
    ∃ K, 0 ≤ K ∧ ∀ (n : ℕ) (dct : List CR → List CR) (nd : Bool) (c : Cheb CR), 2 ≤ n → n < W → FftwOk n dct →
      Cheb.mk' n (fin lo) (fin up) dct true nd = .ok c → ∀ (o o' : List CR), o.length = n → o'.length = n → ∀ s ∈ S,
      ∃ w w2 : ℕ → ℝ, c.der (tab n fun i => fin (u s (chebPt n lo up i))) o = .ok (tab n fun i => fin (w i)) ∧
        c.der (tab n fun i => fin (w i)) o' = .ok (tab n fun i => fin (w2 i)) ∧ ∀ i, i < n →
        |w i - u1 s (chebPt n lo up i)| ≤ K * (1 / ((n : ℝ) - 1)) ^ p ∧ |w2 i - u2 s (chebPt n lo up i)| ≤ K * (1 / ((n : ℝ) - 1)) ^ p := by
  obtain ⟨A, hA, hap⟩ := h
  have hd : 0 < up - lo := by linarith
  obtain ⟨m, hm⟩ : ∃ m, m = 32 / (up - lo) := ⟨_, rfl⟩
  have hm0 : 0 < m := by rw [hm]; positivity
  refine ⟨A * (1 + m + m ^ 2), by positivity, ?_⟩
  intro n dct nd c hn hW hf hc o o' ho ho' s hs
  obtain ⟨w, w2, h1, h2, h3⟩ := C89_best_approximation hn hW hlu hf hc (fun i => u s (chebPt n lo up i)) ho ho'
  obtain ⟨Q, q1, q2⟩ := hap (n - 2) s hs
  refine ⟨w, w2, h1, h2, fun i hi => ?_⟩
  obtain ⟨t, ht⟩ : ∃ t : ℝ, t = (n : ℝ) - 1 := ⟨_, rfl⟩
  have ht1 : 1 ≤ t := by
    have : (2 : ℝ) ≤ n := by exact_mod_cast hn
    linarith
  have hcast : ((n - 2 : ℕ) : ℝ) + 1 = t := by rw [Nat.cast_sub hn, ht]; push_cast; ring
  rw [hcast] at q2
  obtain ⟨δ, hδ⟩ : ∃ δ, δ = A / t ^ (p + 6) := ⟨_, rfl⟩
  rw [← hδ] at q2
  have hδ0 : 0 ≤ δ := by rw [hδ]; positivity
  obtain ⟨e1, e2⟩ := h3 Q δ q1 (fun i hi => (q2 _ (chebPt_mem hn hlu i)).1) i hi
  obtain ⟨_, d1, d2⟩ := q2 _ (chebPt_mem hn hlu i)
  have hM : 4 * (n : ℝ) ^ 3 / (up - lo) ≤ m * t ^ 3 := by
    have : (n : ℝ) ≤ 2 * t := by rw [ht] at ht1 ⊢; linarith
    have : (n : ℝ) ^ 3 ≤ (2 * t) ^ 3 := pow_le_pow_left₀ (by positivity) this 3
    rw [hm, div_mul_eq_mul_div]
    refine div_le_div_of_nonneg_right ?_ hd.le
    rw [mul_pow] at this
    linarith
  have hM0 : 0 ≤ 4 * (n : ℝ) ^ 3 / (up - lo) := by positivity
  have t3 : 1 ≤ t ^ 3 := one_le_pow₀ ht1
  have t6 : 1 ≤ t ^ 6 := one_le_pow₀ ht1
  have t36 : t ^ 3 ≤ t ^ 6 := pow_le_pow_right₀ ht1 (by norm_num)
  have key : δ * (1 + m + m ^ 2) * t ^ 6 = A * (1 + m + m ^ 2) * (1 / t) ^ p := by
    have ht0 : 0 < t := by linarith
    rw [hδ, one_div, inv_pow, pow_add]
    field_simp
  have tri : ∀ {y z q e : ℝ}, |y - q| ≤ e → |z - q| ≤ δ → e ≤ δ * (m + m ^ 2) * t ^ 6 → |y - z| ≤ A * (1 + m + m ^ 2) * (1 / t) ^ p := by
    intro y z q e h1 h2 h3
    rw [← key]
    have : |y - z| ≤ |y - q| + |z - q| := by rw [abs_sub_comm z q]; exact abs_sub_le y q z
    have h4 : δ * 1 ≤ δ * t ^ 6 := mul_le_mul_of_nonneg_left t6 hδ0
    nlinarith
  rw [← ht]
  refine ⟨tri e1 d1 ?_, tri e2 d2 ?_⟩
  · have h1 : 4 * (n : ℝ) ^ 3 / (up - lo) * δ ≤ m * t ^ 6 * δ :=
      mul_le_mul_of_nonneg_right (hM.trans (mul_le_mul_of_nonneg_left t36 hm0.le)) hδ0
    have h2 : 0 ≤ δ * m ^ 2 * t ^ 6 := by positivity
    linarith
  · have h1 : (4 * (n : ℝ) ^ 3 / (up - lo)) ^ 2 ≤ (m * t ^ 3) ^ 2 := pow_le_pow_left₀ hM0 hM 2
    have h2 := mul_le_mul_of_nonneg_right h1 hδ0
    have h3 : 0 ≤ δ * m * t ^ 6 := by positivity
    have h4 : (m * t ^ 3) ^ 2 * δ = δ * m ^ 2 * t ^ 6 := by ring
    linarith

/-- C89: spectral accuracy.  On every interval and for every smooth function the first and second derivatives computed on the Chebyshev
grid converge faster than any power of the number of points: for every `p` there is one constant `K` such that for every grid size, at
every grid point, the errors are at most `K/(n-1)^p` (`p+10` continuous derivatives are enough for the power `p`). -/
theorem C89_spectral {lo up : ℝ} (hlu : lo < up) (p : ℕ) {f : ℝ → ℝ} (hf : ContDiff ℝ (p + 10 : ℕ) f) :
    ∃ K, 0 ≤ K ∧ ∀ (n : ℕ) (dct : List CR → List CR) (nd : Bool) (c : Cheb CR), 2 ≤ n → n < W → FftwOk n dct →
      Cheb.mk' n (fin lo) (fin up) dct true nd = .ok c → ∀ (o o' : List CR), o.length = n → o'.length = n →
      ∃ w w2 : ℕ → ℝ, c.der (tab n fun i => fin (f (chebPt n lo up i))) o = .ok (tab n fun i => fin (w i)) ∧
        c.der (tab n fun i => fin (w i)) o' = .ok (tab n fun i => fin (w2 i)) ∧ ∀ i, i < n →
        |w i - deriv f (chebPt n lo up i)| ≤ K * (1 / ((n : ℝ) - 1)) ^ p ∧
        |w2 i - iteratedDeriv 2 f (chebPt n lo up i)| ≤ K * (1 / ((n : ℝ) - 1)) ^ p := by
  obtain ⟨K, hK, h⟩ := der_of_approx hlu (approx2_of_smooth (s := p + 6) hf hlu)
  refine ⟨K, hK, fun n dct nd c h1 h2 h3 h4 o o' h5 h6 => ?_⟩
  obtain ⟨w, w2, g1, g2, g3⟩ := h n dct nd c h1 h2 h3 h4 o o' h5 h6 () trivial
  refine ⟨w, w2, g1, g2, fun i hi => ?_⟩
  rw [iteratedDeriv_succ, iteratedDeriv_one]
  exact g3 i hi

end

/-- non-vacuity of C89: the sine on the interval `[1,3]`, a grid of 65 points -/
example : ∃ (dct : List CR → List CR) (c : Cheb CR), FftwOk 65 dct ∧ Cheb.mk' 65 (fin 1) (fin 3) dct true false = .ok c ∧
    ContDiff ℝ (4 + 10 : ℕ) Real.sin := by
  obtain ⟨dct, h⟩ := exists_fftw 65
  exact ⟨dct, _, h, Cheb.mk'_eq _ _ _ _ _, Real.contDiff_sin⟩

/-! ### C90 -/

/-- angles of the sphere -/
def angBox : Set (ℝ × ℝ) := Set.Icc 0 Real.pi ×ˢ Set.Icc 0 (2 * Real.pi)

theorem ang_bounded {u : ℝ × ℝ → ℝ} (hu : Continuous u) : ∃ B, 0 ≤ B ∧ ∀ i ∈ angBox, |u i| ≤ B := by
  obtain ⟨B, hB⟩ := (isCompact_Icc.prod isCompact_Icc : IsCompact angBox).exists_bound_of_continuousOn hu.continuousOn
  exact ⟨max B 0, le_max_right _ _, fun i hi => (hB i hi).trans (le_max_left _ _)⟩

theorem SModes.approx2 {F : SModes} {s nl nm : ℕ} (hF : F.Smooth (s + 4) nl nm) {lo up : ℝ} (hlu : lo < up) :
    Approx2 lo up s angBox (fun i R => F.fn nl R i.1 i.2) (fun i R => F.D.fn nl R i.1 i.2) (fun i R => F.D.D.fn nl R i.1 i.2) := by
  classical
  simp only [SModes.fn_eq]
  have hT : ∀ l m, Continuous (fun i : ℝ × ℝ => ThN l m i.1) := fun l m => (contDiff_ThN l m).continuous.comp continuous_fst
  have hA : ∀ l m, Approx2 lo up s angBox (fun _ => (F l m).1) (fun _ => (F.D l m).1) (fun _ => (F.D.D l m).1) := fun l m =>
    (approx2_of_smooth (hF.diff l m).1 hlu).const
  have hB : ∀ l m, Approx2 lo up s angBox (fun _ => (F l m).2) (fun _ => (F.D l m).2) (fun _ => (F.D.D l m).2) := fun l m =>
    (approx2_of_smooth (hF.diff l m).2 hlu).const
  have mulc : ∀ {u u1 u2 : ℝ × ℝ → ℝ → ℝ} (b : ℝ × ℝ → ℝ), Continuous b → Approx2 lo up s angBox u u1 u2 →
      Approx2 lo up s angBox (fun i x => b i * u i x) (fun i x => b i * u1 i x) (fun i x => b i * u2 i x) := by
    intro u u1 u2 b hb h
    obtain ⟨B, h0, hB⟩ := ang_bounded hb
    exact h.mul hB h0
  refine Approx2.sum _ fun l _ => Approx2.add (mulc _ (hT l 0) (hA l 0)) (mulc (fun _ => 2) continuous_const (Approx2.sum _ fun m _ => ?_))
  have h1 := mulc (fun i : ℝ × ℝ => ThN l m i.1 * Real.cos (m * i.2)) ((hT l m).mul (by fun_prop)) (hA l m)
  have h2 := mulc (fun i : ℝ × ℝ => -(ThN l m i.1 * Real.sin (m * i.2))) ((hT l m).mul (by fun_prop)).neg (hB l m)
  simpa only [neg_mul, ← sub_eq_add_neg] using h1.add h2

theorem LineErr.of_cheb {q : Phys} {F : SModes} {p nl nm : ℕ} (hF : F.Smooth (p + 10) nl nm) (hlu : q.lo < q.up) :
    ∃ K, 0 ≤ K ∧ ∀ (E : Env CR) (P : ParamRec CR), Sizes E.useCheb P.nx P.nl P.nlat P.nphi → E.useCheb = true → FftwOk P.nx (E.dct P.nx) → P.nl = nl →
      LineErr E P q F (K * (1 / ((P.nx : ℝ) - 1)) ^ p) := by
  obtain ⟨K, hK, h⟩ := der_of_approx hlu (SModes.approx2 (s := p + 6) hF hlu)
  refine ⟨K, hK, fun E P hz hc hf hnl θ hθ φ hφ i hi => ?_⟩
  subst hnl
  obtain ⟨h2, hW⟩ := hz.two
  obtain ⟨w, w2, e1, e2, e3⟩ := h P.nx (E.dct P.nx) E.ndebug _ h2 hW hf (Cheb.mk'_eq _ _ _ _ _) (tab P.nx fun _ => fin 0) (tab P.nx fun _ => fin 0)
    (by simp) (by simp) (θ, φ) ⟨hθ, hφ⟩
  have hb := built h2 hW hf (Cheb.mk'_eq P.nx (fin q.lo) (fin q.up) (E.dct P.nx) E.ndebug)
  rw [Cheb.der_eq hb.wf (by simp) (by simp)] at e1 e2
  injection e1 with e1
  injection e2 with e2
  rw [hc]
  unfold Grid.radialOf
  rw [hc]
  simp only [radPt, if_true]
  refine ⟨w i, w2 i, ?_, ?_, (e3 i hi).1, (e3 i hi).2⟩
  · show gv (Cheb.derP _ _) i = _
    rw [e1, gv_tab hi]
  · show gv (Cheb.derP _ (Cheb.derP _ _)) i = _
    rw [e1, e2, gv_tab hi]

/-- C90: the Chebyshev discretisation of space is spectrally consistent.  Fix the physics, the radial interval and the data: `ψ` and
`∂_vψ` on the initial slice are sums of spherical harmonics below degree `nl` with smooth coefficients in the compactified radius, and
`ψ` avoids the singularities of the equation (`ψ=-1`, `k(ψ)=0`).  Then for every `p` there is one constant `C` such that, for every grid on that interval of
a solver built with `USE_CHEB` (any number of radial and angular points, any layout, debug or release), every uninitialised memory and every contents of
the work and output arrays, the time derivative of the momentum which the solver computes from the values of `ψ` and `∂_vψ` differs from
`∂_v²ψ`, at every grid point at finite radius where `ψ` is C² and solves the covariant field equation, by at most `C/(nx-1)^p`; the time
derivative of the field is `∂_vψ` itself.  (`p+10` continuous derivatives are enough for the power `p`.) -/
theorem C90_consistency {q : Phys} (ho : q.Ok) (hlu : q.lo < q.up) (hlo : 0 < q.lo) (n : ℕ) {nl nm : ℕ} {F G : SModes} (hF : F.Smooth (n + 10) nl nm)
    (hG : G.Smooth (n + 10) nl nm)
    (hk : ∀ R ∈ Set.Icc q.lo q.up, ∀ θ ∈ Set.Icc 0 Real.pi, ∀ φ ∈ Set.Icc 0 (2 * Real.pi), F.fn nl R θ φ ≠ -1 ∧ q.kin (F.fn nl R θ φ) ≠ 0) :
    ∃ C, 0 ≤ C ∧ ∀ (E : Env CR) (P : ParamRec CR) (g : Grid CR) (e : Eom CR) (x : ℕ → ℝ) (A : ℕ → ℕ → ℕ → ℝ), Exact E P g q x A →
      E.useCheb = true → P.nl = nl → P.nm = nm → Eom.Of g P e →
      ∀ (J : Junk (Cx CR)) (f p fk pk : List CR), HoldsC E P q x g f F.at → HoldsC E P q x g p G.at →
      fk.length = P.nx * P.nlat * P.nphi → pk.length = P.nx * P.nlat * P.nphi →
      ∃ e' pk', e.set_k g J f p fk pk = .ok (e', p, pk') ∧
        ∀ (ψ : Pt → ℝ) (v0 r0 : ℝ), 0 ≤ r0 → compR q.L r0 < q.lo → OnSliceFrom ψ v0 r0 q.L nl F G →
        ∀ ix it ip, ix < P.nx → it < P.nlat → ip < P.nphi → ∀ R θ φ : ℝ, g.getR_th_ph ix it ip = .ok ⟨fin R, fin θ, fin φ⟩ →
          1 / 10 ^ 16 < q.L - R → ContDiffAt ℝ 2 ψ ![v0, physR q.L R, θ, φ] →
          eomLhs q.kin q.pot (ψ ![v0, physR q.L R, θ, φ]) (boxG (metric q.M q.a) ψ ![v0, physR q.L R, θ, φ])
            (gradG (metric q.M q.a) ψ ![v0, physR q.L R, θ, φ]) = 0 →
          g.d.at3 p ix it ip = fin (pd 0 ψ ![v0, physR q.L R, θ, φ]) ∧
          ∃ y, g.d.at3 pk' ix it ip = fin y ∧
            |y - pd 0 (pd 0 ψ) ![v0, physR q.L R, θ, φ]| ≤ C * (1 / ((P.nx : ℝ) - 1)) ^ n := by
  have low : ∀ {H : SModes}, H.Smooth (n + 10) nl nm → H.Smooth 8 nl nm := fun {H} h =>
    ⟨fun l m => ⟨(h.diff l m).1.of_le (by norm_cast; omega), (h.diff l m).2.of_le (by norm_cast; omega)⟩, h.real, h.top⟩
  obtain ⟨KF, zF, kF⟩ := LineErr.of_cheb hF hlu
  obtain ⟨KG, zG, kG⟩ := LineErr.of_cheb hG hlu
  obtain ⟨KP, zP, kP⟩ := LineErr.of_cheb hF.dphi hlu
  obtain ⟨K, hK⟩ : ∃ K, K = KF + KG + KP := ⟨_, rfl⟩
  have hK0 : 0 ≤ K := by rw [hK]; positivity
  obtain ⟨C, hC, h⟩ := consistency_core ho hlu hlo (low hF) (low hG) hk hK0
  refine ⟨C * K, by positivity, ?_⟩
  intro E P g e x A hX hch hnl hnm he J f p fk pk hf hp hfk hpk
  have hn1 : (1 : ℝ) ≤ (P.nx : ℝ) - 1 := by
    have : (2 : ℝ) ≤ P.nx := by exact_mod_cast hX.setup.sizes.two.1
    linarith
  obtain ⟨t, ht⟩ : ∃ t : ℝ, t = (1 / ((P.nx : ℝ) - 1)) ^ n := ⟨_, rfl⟩
  have ht0 : 0 ≤ t := by rw [ht]; positivity
  have ht1 : t ≤ 1 := by rw [ht]; exact pow_le_one₀ (by positivity) (by rw [div_le_one (by linarith)]; exact hn1)
  have mono : ∀ {H : SModes} {k : ℝ}, k ≤ K → LineErr E P q H (k * (1 / ((P.nx : ℝ) - 1)) ^ n) → LineErr E P q H (K * t) := by
    intro H k hk hl θ hθ φ hφ i hi
    obtain ⟨y1, y2, a, b, c, d⟩ := hl θ hθ φ hφ i hi
    have : k * (1 / ((P.nx : ℝ) - 1)) ^ n ≤ K * t := by rw [← ht]; exact mul_le_mul_of_nonneg_right hk ht0
    exact ⟨y1, y2, a, b, c.trans this, d.trans this⟩
  obtain ⟨e', pk', h1, h2⟩ := h E P g e x A hX hnl hnm he (K * t) (by positivity) (mul_le_of_le_one_right hK0 ht1)
    (mono (by rw [hK]; linarith) (kF E P hX.setup.sizes hch hX.env.fftw hnl)) (mono (by rw [hK]; linarith) (kG E P hX.setup.sizes hch hX.env.fftw hnl))
    (mono (by rw [hK]; linarith) (kP E P hX.setup.sizes hch hX.env.fftw hnl)) J f p fk pk hf hp hfk hpk
  refine ⟨e', pk', h1, ?_⟩
  intro ψ v0 r0 hr0 hcr hψ ix it ip hx hit hip R θ φ hc hRL hCd heq
  obtain ⟨m1, y, m2, m3⟩ := h2 ψ v0 r0 hr0 hcr hψ ix it ip hx hit hip R θ φ hc hRL hCd heq
  refine ⟨m1, y, m2, m3.trans (le_of_eq ?_)⟩
  rw [← ht, mul_assoc]

/-- non-vacuity of C90 -/
example := consistency_demo true

end SFK
