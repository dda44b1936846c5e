import Verif.Lemmas.GridIndex
/-
C01-C06: storage layout and row/slab access of the Grid class, for all sizes and contents.
-/
namespace SFK
open Dims

/-- A non-square grid used to show that hypotheses are satisfiable. -/
def exD (contig : Bool) : Dims := ⟨9, 4, 3, 5, 7, contig, false⟩

theorem exD_ok (c : Bool) : (exD c).Ok :=
  ⟨by show 0 < 9; omega, by show 0 < 5; omega, by show 0 < 7; omega, by show 9 * 5 * 7 < W; unfold W; omega,
   by show 9 * 4 < W; unfold W; omega⟩

/-! ## C01 -/

/-- C01: the position of `(ix,it,ip)` lies inside the storage, different points have different positions and
every position belongs to a point; any sizes, both layouts. -/
theorem C01_index_bijection (d : Dims) (h : d.Ok) :
    (∀ ix it ip, d.InR ix it ip → d.indx_R_th_ph ix it ip < d.nx * d.nlat * d.nphi) ∧
    (∀ ix it ip ix' it' ip', d.InR ix it ip → d.InR ix' it' ip' →
      d.indx_R_th_ph ix it ip = d.indx_R_th_ph ix' it' ip' → ix = ix' ∧ it = it' ∧ ip = ip') ∧
    (∀ k, k < d.nx * d.nlat * d.nphi → ∃ ix it ip, d.InR ix it ip ∧ d.indx_R_th_ph ix it ip = k) :=
  ⟨fun _ _ _ hr => h.idx3_lt hr, fun _ _ _ _ _ _ hr hr' he => h.idx3_inj hr hr' he, fun _ hk => h.idx3_surj hk⟩

/-- `f` restricted to `i<A`, `j<B` is a bijection onto the positions below `A*B`. -/
def Bij2 (A B : Nat) (f : Nat → Nat → Nat) : Prop :=
  (∀ i j, i < A → j < B → f i j < A * B) ∧
  (∀ i j i' j', i < A → j < B → i' < A → j' < B → f i j = f i' j' → i = i' ∧ j = j') ∧
  (∀ k, k < A * B → ∃ i j, i < A ∧ j < B ∧ f i j = k)

theorem bij2_of_row {A B : Nat} {f : Nat → Nat → Nat}
    (hf : ∀ i j, i < A → j < B → f i j = B * i + j) : Bij2 A B f := by
  refine ⟨fun i j hi hj => by rw [hf i j hi hj]; exact mul_add_lt hi hj, ?_, ?_⟩
  · intro i j i' j' hi hj hi' hj' he
    rw [hf i j hi hj, hf i' j' hi' hj'] at he
    have h1 := div_mod_lemma (i := i) hj
    have h2 := div_mod_lemma (i := i') hj'
    rw [he] at h1
    exact ⟨h1.1.symm.trans h2.1, h1.2.symm.trans h2.2⟩
  · intro k hk
    have hB : 0 < B := Nat.pos_of_ne_zero (by rintro h; simp [h] at hk)
    have h1 : k / B < A := Nat.div_lt_of_lt_mul (by rwa [Nat.mul_comm] at hk)
    have h2 : k % B < B := Nat.mod_lt _ hB
    exact ⟨k / B, k % B, h1, h2, by rw [hf _ _ h1 h2]; exact Nat.div_add_mod _ _⟩

/-- C01, two-index positions: (R,l), (R,theta), (R,phi), (theta,phi) and the Sphere's own (theta,phi). -/
theorem C01_index_bijection_2d (d : Dims) (h : d.Ok) :
    Bij2 d.nx d.nl d.indx_r_l ∧ Bij2 d.nx d.nlat d.indx_r_th ∧ Bij2 d.nx d.nphi d.indx_r_ph ∧
    Bij2 d.nlat d.nphi d.indx_th_ph ∧ Bij2 d.nlat d.nphi d.sphere_indx := by
  have h2 : Bij2 d.nlat d.nphi d.indx_th_ph := by
    refine ⟨fun it ip ht hp => by rw [h.indx2 ht hp]; exact d.pos2_lt ht hp, ?_, ?_⟩
    · intro it ip it' ip' ht hp ht' hp' he
      rw [h.indx2 ht hp, h.indx2 ht' hp'] at he
      exact ⟨by rw [← d.decT_pos2 ht hp, he, d.decT_pos2 ht' hp'],
        by rw [← d.decP_pos2 ht hp, he, d.decP_pos2 ht' hp']⟩
    · intro k hk
      obtain ⟨a, b, c⟩ := d.dec2 hk
      exact ⟨_, _, a, b, by rw [h.indx2 a b, c]⟩
  refine ⟨bij2_of_row fun i j => h.indx_rl, bij2_of_row fun i j => h.indx_rth, bij2_of_row fun i j => h.indx_rph,
    h2, h2⟩

example : (exD true).Ok ∧ (exD true).InR 8 4 6 ∧ (exD true).indx_R_th_ph 8 4 6 = 314 ∧
    (exD true).indx_R_th_ph 0 1 2 = 11 ∧ (exD false).indx_R_th_ph 0 1 2 = 9 :=
  ⟨exD_ok _, ⟨by decide, by decide, by decide⟩, by decide, by decide, by decide⟩

/-! ## C02 -/

/-- C02: the 64-bit computation gives the mathematical row-major value in either layout. -/
theorem C02_index_no_wrap (d : Dims) (h : d.Ok) (ix it ip : Nat) (hr : d.InR ix it ip) :
    d.indx_R_th_ph ix it ip =
      if d.contig then (ix * d.nphi + ip) * d.nlat + it else (ix * d.nlat + it) * d.nphi + ip := by
  rw [h.indx3 hr]
  unfold pos3 pos2 shell
  split <;> ring

/-- C02: grid position = shell number times shell size + sphere position, and the Grid and Sphere formulas for
the position inside a shell are the same, so shells are contiguous blocks laid out as the transforms expect. -/
theorem C02_grid_sphere_layout_agree (d : Dims) (h : d.Ok) (ix it ip : Nat) (hr : d.InR ix it ip) :
    d.indx_R_th_ph ix it ip = ix * (d.nlat * d.nphi) + d.sphere_indx it ip ∧
    d.indx_th_ph it ip = d.sphere_indx it ip := by
  have e : d.indx_th_ph it ip = d.sphere_indx it ip := rfl
  refine ⟨?_, e⟩
  rw [← e, h.indx2 hr.2.1 hr.2.2, h.indx3 hr]
  unfold pos3 shell
  ring

/-- C02, two-index arrays: the radius is the slow index of every (R,·) array, the position inside a shell is the one the transforms
use, and none of these computations wraps. -/
theorem C02_two_index_layout (d : Dims) (h : d.Ok) :
    (∀ ix it, ix < d.nx → it < d.nlat → d.indx_r_th ix it = d.nlat * ix + it) ∧
    (∀ ix ip, ix < d.nx → ip < d.nphi → d.indx_r_ph ix ip = d.nphi * ix + ip) ∧
    (∀ ix il, ix < d.nx → il < d.nl → d.indx_r_l ix il = d.nl * ix + il) ∧
    (∀ it ip, it < d.nlat → ip < d.nphi → d.indx_th_ph it ip = (if d.contig then d.nlat * ip + it else d.nphi * it + ip) ∧
      d.sphere_indx it ip = (if d.contig then d.nlat * ip + it else d.nphi * it + ip)) := by
  refine ⟨fun _ _ => h.indx_rth, fun _ _ => h.indx_rph, fun _ _ => h.indx_rl, fun it ip ht hp => ?_⟩
  have e : d.sphere_indx it ip = d.indx_th_ph it ip := rfl
  rw [e, h.indx2 ht hp]
  exact ⟨rfl, rfl⟩

/-- C02: the size products used in the assertions do not wrap either. -/
theorem C02_sizes_no_wrap (d : Dims) (h : d.Ok) : d.nFull = d.nx * d.nlat * d.nphi := h.nFull_eq

/-- Without the size hypothesis the computed index does wrap, so the hypothesis is needed. -/
theorem C02_wrap_needed : ∃ d : Dims, d.InR 1 0 0 ∧ ¬ d.nx * d.nlat * d.nphi < W ∧
    d.indx_R_th_ph 1 0 0 = d.indx_R_th_ph 0 0 0 := by
  refine ⟨⟨2, 1, 1, 2 ^ 32, 2 ^ 32, true, true⟩, ⟨by decide, by decide, by decide⟩, ?_, ?_⟩
  · unfold W; decide
  · decide

/-! ## C03 -/

section rows
variable {α : Type} [Inhabited α]

/-- C03, reading: `get_row_R` returns the `nx` values on the line `(it,ip)` whatever was in `out`. -/
theorem C03_get_row_R (d : Dims) (h : d.Ok) (it ip : Nat) (ht : it < d.nlat) (hp : ip < d.nphi)
    (inp out : List α) (hi : inp.length = d.nx * d.nlat * d.nphi) (ho : out.length = d.nx) :
    ∃ w, d.get_row_R it ip inp out = .ok w ∧ w.length = d.nx ∧
      ∀ ix, ix < d.nx → gv w ix = d.at3 inp ix it ip :=
  ⟨_, h.get_row_R_eq ht hp hi ho, by simp, fun _ hx => gv_tab hx⟩

/-- C03, writing: `set_row_R` stores the line and leaves every other grid value unchanged. -/
theorem C03_set_row_R (d : Dims) (h : d.Ok) (it ip : Nat) (ht : it < d.nlat) (hp : ip < d.nphi)
    (inp out : List α) (hi : inp.length = d.nx) (ho : out.length = d.nx * d.nlat * d.nphi) :
    ∃ w, d.set_row_R it ip inp out = .ok w ∧ w.length = d.nx * d.nlat * d.nphi ∧
      ∀ ix it' ip', d.InR ix it' ip' →
        d.at3 w ix it' ip' = if it' = it ∧ ip' = ip then gv inp ix else d.at3 out ix it' ip' :=
  ⟨_, h.set_row_R_eq ht hp hi ho, mk3_length _, fun _ _ _ hr => h.at3_mk3 hr⟩

/-- C03, get after set. -/
theorem C03_get_set_row_R (d : Dims) (h : d.Ok) (it ip : Nat) (ht : it < d.nlat) (hp : ip < d.nphi)
    (row out buf : List α) (hi : row.length = d.nx) (ho : out.length = d.nx * d.nlat * d.nphi)
    (hb : buf.length = d.nx) :
    (d.set_row_R it ip row out >>= fun w => d.get_row_R it ip w buf) = .ok row := by
  rw [h.set_row_R_eq ht hp hi ho, ok_bind, h.get_row_R_eq ht hp (mk3_length _) hb]
  congr 1
  refine (eq_tab hi fun ix hx => ?_).symm
  rw [h.at3_mk3 ⟨hx, ht, hp⟩, if_pos ⟨rfl, rfl⟩]

/-- C03, set after get. -/
theorem C03_set_get_row_R (d : Dims) (h : d.Ok) (it ip : Nat) (ht : it < d.nlat) (hp : ip < d.nphi)
    (v buf : List α) (hv : v.length = d.nx * d.nlat * d.nphi) (hb : buf.length = d.nx) :
    (d.get_row_R it ip v buf >>= fun row => d.set_row_R it ip row v) = .ok v := by
  rw [h.get_row_R_eq ht hp hv hb, ok_bind, h.set_row_R_eq ht hp (by simp) hv]
  congr 1
  refine h.ext3 (mk3_length _) hv fun ix it' ip' hr => ?_
  rw [h.at3_mk3 hr]
  split
  · rename_i hc; rw [gv_tab hr.1, hc.1, hc.2]
  · rfl

example : ∃ d : Dims, d.Ok ∧ d.nlat ≠ d.nphi ∧ 3 < d.nlat ∧ 6 < d.nphi :=
  ⟨exD true, exD_ok _, by decide, by decide, by decide⟩

/-! ## C04 -/

/-- C04: theta lines. -/
theorem C04_row_th (d : Dims) (h : d.Ok) (ix ip : Nat) (hx : ix < d.nx) (hp : ip < d.nphi)
    (v row : List α) (hv : v.length = d.nx * d.nlat * d.nphi) (hr : row.length = d.nlat) :
    (∃ w, d.get_row_th ix ip v row = .ok w ∧ w.length = d.nlat ∧
      ∀ it, it < d.nlat → gv w it = d.at3 v ix it ip) ∧
    (∃ w, d.set_row_th ix ip row v = .ok w ∧ w.length = d.nx * d.nlat * d.nphi ∧
      ∀ ix' it ip', d.InR ix' it ip' →
        d.at3 w ix' it ip' = if ix' = ix ∧ ip' = ip then gv row it else d.at3 v ix' it ip') ∧
    (d.set_row_th ix ip row v >>= fun w => d.get_row_th ix ip w row) = .ok row ∧
    (d.get_row_th ix ip v row >>= fun r => d.set_row_th ix ip r v) = .ok v := by
  refine ⟨⟨_, h.get_row_th_eq hx hp hv hr, by simp, fun _ ht => gv_tab ht⟩,
    ⟨_, h.set_row_th_eq hx hp hr hv, mk3_length _, fun _ _ _ hr => h.at3_mk3 hr⟩, ?_, ?_⟩
  · rw [h.set_row_th_eq hx hp hr hv, ok_bind, h.get_row_th_eq hx hp (mk3_length _) hr]
    congr 1
    refine (eq_tab hr fun it ht => ?_).symm
    rw [h.at3_mk3 ⟨hx, ht, hp⟩, if_pos ⟨rfl, rfl⟩]
  · rw [h.get_row_th_eq hx hp hv hr, ok_bind, h.set_row_th_eq hx hp (by simp) hv]
    congr 1
    refine h.ext3 (mk3_length _) hv fun ix' it ip' hr => ?_
    rw [h.at3_mk3 hr]
    split
    · rename_i hc; rw [gv_tab hr.2.1, hc.1, hc.2]
    · rfl

/-- C04: shells (theta,phi). -/
theorem C04_row_th_ph (d : Dims) (h : d.Ok) (ix : Nat) (hx : ix < d.nx)
    (v s : List α) (hv : v.length = d.nx * d.nlat * d.nphi) (hs : s.length = d.nlat * d.nphi) :
    (∃ w, d.get_row_th_ph ix v s = .ok w ∧ w.length = d.nlat * d.nphi ∧
      ∀ it ip, it < d.nlat → ip < d.nphi → d.at2 w it ip = d.at3 v ix it ip) ∧
    (∃ w, d.set_row_th_ph ix s v = .ok w ∧ w.length = d.nx * d.nlat * d.nphi ∧
      ∀ ix' it ip, d.InR ix' it ip →
        d.at3 w ix' it ip = if ix' = ix then d.at2 s it ip else d.at3 v ix' it ip) ∧
    (d.set_row_th_ph ix s v >>= fun w => d.get_row_th_ph ix w s) = .ok s ∧
    (d.get_row_th_ph ix v s >>= fun r => d.set_row_th_ph ix r v) = .ok v := by
  refine ⟨⟨_, h.get_row_th_ph_eq hx hv hs, mk2_length _, fun _ _ ht hp => h.at2_mk2 ht hp⟩,
    ⟨_, h.set_row_th_ph_eq hx hs hv, mk3_length _, fun _ _ _ hr => h.at3_mk3 hr⟩, ?_, ?_⟩
  · rw [h.set_row_th_ph_eq hx hs hv, ok_bind, h.get_row_th_ph_eq hx (mk3_length _) hs]
    congr 1
    refine h.ext2 (mk2_length _) hs fun it ip ht hp => ?_
    rw [h.at2_mk2 ht hp, h.at3_mk3 ⟨hx, ht, hp⟩, if_pos rfl]
  · rw [h.get_row_th_ph_eq hx hv hs, ok_bind, h.set_row_th_ph_eq hx (mk2_length _) hv]
    congr 1
    refine h.ext3 (mk3_length _) hv fun ix' it ip hr => ?_
    rw [h.at3_mk3 hr]
    split
    · rename_i hc; rw [h.at2_mk2 hr.2.1 hr.2.2, hc]
    · rfl

/-- C04: a shell is a contiguous block of the grid array: `get_row_th_ph` copies `v[ix*S .. (ix+1)*S)` verbatim. -/
theorem C04_shell_is_block (d : Dims) (h : d.Ok) (ix : Nat) (hx : ix < d.nx)
    (v s : List α) (hv : v.length = d.nx * d.nlat * d.nphi) (hs : s.length = d.nlat * d.nphi) :
    d.get_row_th_ph ix v s = .ok ((v.drop (ix * (d.nlat * d.nphi))).take (d.nlat * d.nphi)) := by
  have hlen : d.shell * (ix + 1) ≤ v.length := by
    have : v.length = d.shell * d.nx := by rw [hv]; unfold shell; ring
    rw [this]; exact Nat.mul_le_mul_left _ hx
  have hs' : d.shell * (ix + 1) = d.shell * ix + d.shell := by ring
  rw [h.get_row_th_ph_eq hx hv hs]
  congr 1
  change _ = (v.drop (ix * d.shell)).take d.shell
  rw [Nat.mul_comm ix]
  refine (eq_tab (by simp; omega) fun k hk => ?_).symm
  obtain ⟨h1, h2, h3⟩ := d.dec2 hk
  unfold at3
  beta_reduce
  rw [h.indx3 ⟨hx, h1, h2⟩]
  unfold pos3
  rw [h3]
  simp [gv, hk]

/-- C04: (R,theta) slabs. -/
theorem C04_row_R_th (d : Dims) (h : d.Ok) (ip : Nat) (hp : ip < d.nphi)
    (v s : List α) (hv : v.length = d.nx * d.nlat * d.nphi) (hs : s.length = d.nx * d.nlat) :
    (∃ w, d.get_row_R_th ip v s = .ok w ∧ w.length = d.nx * d.nlat ∧
      ∀ ix it, ix < d.nx → it < d.nlat → gv w (d.indx_r_th ix it) = d.at3 v ix it ip) ∧
    (∃ w, d.set_row_R_th ip s v = .ok w ∧ w.length = d.nx * d.nlat * d.nphi ∧
      ∀ ix it ip', d.InR ix it ip' →
        d.at3 w ix it ip' = if ip' = ip then gv s (d.indx_r_th ix it) else d.at3 v ix it ip') ∧
    (d.set_row_R_th ip s v >>= fun w => d.get_row_R_th ip w s) = .ok s ∧
    (d.get_row_R_th ip v s >>= fun r => d.set_row_R_th ip r v) = .ok v := by
  refine ⟨⟨_, h.get_row_R_th_eq hp hv hs, by simp, fun ix it hx ht => ?_⟩,
    ⟨_, h.set_row_R_th_eq hp hs hv, mk3_length _, fun ix it ip' hr => ?_⟩, ?_, ?_⟩
  · rw [h.indx_rth hx ht, gv_tab (mul_add_lt hx ht), (div_mod_lemma ht).1, (div_mod_lemma ht).2]
  · rw [h.at3_mk3 hr, h.indx_rth hr.1 hr.2.1]
  · rw [h.set_row_R_th_eq hp hs hv, ok_bind, h.get_row_R_th_eq hp (mk3_length _) hs]
    congr 1
    refine (eq_tab hs fun k hk => ?_).symm
    have h1 : k / d.nlat < d.nx := Nat.div_lt_of_lt_mul (by rwa [Nat.mul_comm] at hk)
    rw [h.at3_mk3 ⟨h1, Nat.mod_lt _ h.nlat_pos, hp⟩, if_pos rfl, Nat.div_add_mod]
  · rw [h.get_row_R_th_eq hp hv hs, ok_bind, h.set_row_R_th_eq hp (by simp) hv]
    congr 1
    refine h.ext3 (mk3_length _) hv fun ix it ip' hr => ?_
    rw [h.at3_mk3 hr]
    split
    · rename_i hc
      rw [gv_tab (mul_add_lt hr.1 hr.2.1), (div_mod_lemma hr.2.1).1, (div_mod_lemma hr.2.1).2, hc]
    · rfl

/-- C04: columns of an (R,l) array. -/
theorem C04_row_n (d : Dims) (h : d.Ok) (il : Nat) (hl : il < d.nl)
    (v row : List α) (hv : v.length = d.nx * d.nl) (hr : row.length = d.nx) :
    (∃ w, d.get_row_n il v row = .ok w ∧ w.length = d.nx ∧
      ∀ ix, ix < d.nx → gv w ix = gv v (d.indx_r_l ix il)) ∧
    (∃ w, d.set_row_n il row v = .ok w ∧ w.length = d.nx * d.nl ∧
      ∀ ix il', ix < d.nx → il' < d.nl →
        gv w (d.indx_r_l ix il') = if il' = il then gv row ix else gv v (d.indx_r_l ix il')) ∧
    (d.set_row_n il row v >>= fun w => d.get_row_n il w row) = .ok row ∧
    (d.get_row_n il v row >>= fun r => d.set_row_n il r v) = .ok v := by
  refine ⟨⟨_, h.get_row_n_eq hl hv hr, by simp, fun ix hx => ?_⟩,
    ⟨_, h.set_row_n_eq hl hr hv, by simp, fun ix il' hx hl' => ?_⟩, ?_, ?_⟩
  · rw [gv_tab hx, h.indx_rl hx hl]
  · rw [h.indx_rl hx hl', gv_tab (mul_add_lt hx hl'), (div_mod_lemma hl').1, (div_mod_lemma hl').2]
  · rw [h.set_row_n_eq hl hr hv, ok_bind, h.get_row_n_eq hl (by simp) hr]
    congr 1
    refine (eq_tab hr fun ix hx => ?_).symm
    rw [gv_tab (mul_add_lt hx hl), (div_mod_lemma hl).1, (div_mod_lemma hl).2, if_pos rfl]
  · rw [h.get_row_n_eq hl hv hr, ok_bind, h.set_row_n_eq hl (by simp) hv]
    congr 1
    refine (eq_tab hv fun k hk => ?_).symm
    have h1 : k / d.nl < d.nx := Nat.div_lt_of_lt_mul (by rwa [Nat.mul_comm] at hk)
    split
    · rename_i hc
      rw [gv_tab h1, ← hc, Nat.div_add_mod]
    · rfl

/-- C04: one spectrum into row `ix` of an (R,l) array. -/
theorem C04_set_row_l (d : Dims) (h : d.Ok) (ix : Nat) (hx : ix < d.nx)
    (v row : List α) (hv : v.length = d.nx * d.nl) (hr : row.length = d.nl) :
    ∃ w, d.set_row_l ix row v = .ok w ∧ w.length = d.nx * d.nl ∧
      ∀ ix' il, ix' < d.nx → il < d.nl →
        gv w (d.indx_r_l ix' il) = if ix' = ix then gv row il else gv v (d.indx_r_l ix' il) := by
  refine ⟨_, h.set_row_l_eq hx hr hv, by simp, fun ix' il hx' hl => ?_⟩
  rw [h.indx_rl hx' hl, gv_tab (mul_add_lt hx' hl), (div_mod_lemma hl).1, (div_mod_lemma hl).2]

omit [Inhabited α] in
/-- C04: every getter/setter rejects arrays of the wrong size when assertions are compiled in. -/
theorem C04_wrong_size_aborts (d : Dims) (hnd : d.ndebug = false) (it ip : Nat) (inp out : List α)
    (hbad : inp.length ≠ d.nFull) :
    d.get_row_R it ip inp out = .error .abort ∧ d.get_row_th it ip inp out = .error .abort ∧
    d.get_row_th_ph it inp out = .error .abort ∧ d.get_row_R_th it inp out = .error .abort := by
  have : cassert d.ndebug (inp.length == d.nFull) = .error .abort := by simp [cassert, hnd, hbad]
  unfold get_row_R get_row_th get_row_th_ph get_row_R_th
  simp [this]

example : (exD true).Ok ∧ (exD false).Ok ∧ 2 < (exD true).nl ∧ (exD false).nFull = 315 :=
  ⟨exD_ok _, exD_ok _, by decide, by decide⟩

/-! ## C05 -/

/-- C05, the full property as a predicate on a grid: whatever the contents, `set_row_ph` succeeds, writes the
whole azimuthal line and nothing else. -/
def SetRowPhCorrect (α : Type) [Inhabited α] (d : Dims) : Prop :=
  ∀ (ix it : Nat) (inp out : List α), ix < d.nx → it < d.nlat → inp.length = d.nphi →
    out.length = d.nx * d.nlat * d.nphi →
    ∃ w, d.set_row_ph ix it inp out = .ok w ∧ w.length = d.nx * d.nlat * d.nphi ∧
      ∀ ix' it' ip, d.InR ix' it' ip →
        d.at3 w ix' it' ip = if ix' = ix ∧ it' = it then gv inp ip else d.at3 out ix' it' ip

/-- C05 (partial): the property holds exactly on grids with `nlat = nphi`; missing: all other grids, where it
is false of the code (`C05_set_row_ph_short`, `C05_set_row_ph_out_of_bounds`). -/
theorem C05_set_row_ph_iff_partial (d : Dims) (h : d.Ok) (hα : ∃ a b : α, a ≠ b) :
    SetRowPhCorrect α d ↔ d.nlat = d.nphi := by
  constructor
  · intro hc
    obtain ⟨a, b, hab⟩ := hα
    obtain ⟨w, h1, _, h3⟩ := hc 0 0 (tab d.nphi fun _ => a) (d.mk3 fun _ _ _ => b) h.nx_pos h.nlat_pos (by simp)
      (mk3_length _)
    rcases Nat.lt_trichotomy d.nlat d.nphi with hlt | heq | hgt
    · exfalso
      rw [h.set_row_ph_eq h.nx_pos h.nlat_pos (by simp) (mk3_length _) hlt.le] at h1
      cases h1
      have := h3 0 0 d.nlat ⟨h.nx_pos, h.nlat_pos, hlt⟩
      rw [h.at3_mk3 ⟨h.nx_pos, h.nlat_pos, hlt⟩, if_neg (by omega), if_pos ⟨rfl, rfl⟩, gv_tab hlt,
        h.at3_mk3 ⟨h.nx_pos, h.nlat_pos, hlt⟩] at this
      exact hab this.symm
    · exact heq
    · exfalso
      rw [h.set_row_ph_ub h.nx_pos h.nlat_pos (by simp) (mk3_length _) hgt] at h1
      cases h1
  · intro he ix it inp out hx ht hi ho
    refine ⟨_, h.set_row_ph_eq hx ht hi ho he.le, mk3_length _, fun ix' it' ip hr => ?_⟩
    rw [h.at3_mk3 hr]
    have : ip < d.nlat := by rw [he]; exact hr.2.2
    by_cases hc : ix' = ix ∧ it' = it
    · rw [if_pos hc, if_pos ⟨hc.1, hc.2, this⟩]
    · rw [if_neg hc, if_neg (by tauto)]

/-- C05, what the code does when `nlat < nphi`: the azimuthal points `ip >= nlat` keep their old values. -/
theorem C05_set_row_ph_short (d : Dims) (h : d.Ok) (ix it : Nat) (hx : ix < d.nx) (ht : it < d.nlat)
    (inp out : List α) (hi : inp.length = d.nphi) (ho : out.length = d.nx * d.nlat * d.nphi)
    (hlt : d.nlat < d.nphi) :
    ∃ w, d.set_row_ph ix it inp out = .ok w ∧
      (∀ ip, ip < d.nlat → d.at3 w ix it ip = gv inp ip) ∧
      (∀ ip, d.nlat ≤ ip → ip < d.nphi → d.at3 w ix it ip = d.at3 out ix it ip) := by
  refine ⟨_, h.set_row_ph_eq hx ht hi ho hlt.le, fun ip hp => ?_, fun ip h1 h2 => ?_⟩
  · rw [h.at3_mk3 ⟨hx, ht, by omega⟩, if_pos ⟨rfl, rfl, hp⟩]
  · rw [h.at3_mk3 ⟨hx, ht, h2⟩, if_neg (by omega)]

/-- C05, what the code does when `nlat > nphi` (with assertions on or off): an out-of-bounds access. -/
theorem C05_set_row_ph_out_of_bounds (d : Dims) (h : d.Ok) (ix it : Nat) (hx : ix < d.nx) (ht : it < d.nlat)
    (inp out : List α) (hi : inp.length = d.nphi) (ho : out.length = d.nx * d.nlat * d.nphi)
    (hlt : d.nphi < d.nlat) : d.set_row_ph ix it inp out = .error .ub :=
  h.set_row_ph_ub hx ht hi ho hlt

/-- C05, reading an azimuthal line is correct on every grid. -/
theorem C05_get_row_ph (d : Dims) (h : d.Ok) (ix it : Nat) (hx : ix < d.nx) (ht : it < d.nlat)
    (inp out : List α) (hi : inp.length = d.nx * d.nlat * d.nphi) (ho : out.length = d.nphi) :
    ∃ w, d.get_row_ph ix it inp out = .ok w ∧ w.length = d.nphi ∧
      ∀ ip, ip < d.nphi → gv w ip = d.at3 inp ix it ip :=
  ⟨_, h.get_row_ph_eq hx ht hi ho, by simp, fun _ hp => gv_tab hp⟩

example : (exD true).Ok ∧ (exD true).nlat < (exD true).nphi := ⟨exD_ok _, by decide⟩
example : ∃ d : Dims, d.Ok ∧ d.nphi < d.nlat :=
  ⟨⟨9, 4, 3, 7, 5, true, true⟩, ⟨by decide, by decide, by decide, by decide, by decide⟩, by decide⟩
example : ∃ d : Dims, d.Ok ∧ d.nphi = d.nlat :=
  ⟨⟨9, 4, 3, 8, 8, true, true⟩, ⟨by decide, by decide, by decide, by decide, by decide⟩, by decide⟩

/-! ## C06 -/

/-- C06 (partial): in builds without assertions, or on grids with `nlat = nphi`, a correctly sized output
receives the slab.  Missing: builds with assertions on other grids, where the call aborts
(`C06_get_row_R_ph_aborts`). -/
theorem C06_get_row_R_ph_partial (d : Dims) (h : d.Ok) (it : Nat) (ht : it < d.nlat)
    (v s : List α) (hv : v.length = d.nx * d.nlat * d.nphi) (hs : s.length = d.nx * d.nphi)
    (hc : d.ndebug = true ∨ d.nphi = d.nlat) :
    ∃ w, d.get_row_R_ph it v s = .ok w ∧ w.length = d.nx * d.nphi ∧
      ∀ ix ip, ix < d.nx → ip < d.nphi → gv w (d.indx_r_ph ix ip) = d.at3 v ix it ip := by
  refine ⟨_, h.get_row_R_ph_eq ht hv hs hc, by simp, fun ix ip hx hp => ?_⟩
  rw [h.indx_rph hx hp, gv_tab (mul_add_lt hx hp), (div_mod_lemma hp).1, (div_mod_lemma hp).2]

omit [Inhabited α] in
/-- C06, the defect: with assertions on and `nlat ≠ nphi`, a correctly sized output makes the call abort. -/
theorem C06_get_row_R_ph_aborts (d : Dims) (h : d.Ok) (it : Nat) (hnd : d.ndebug = false) (hne : d.nphi ≠ d.nlat)
    (v s : List α) (hv : v.length = d.nx * d.nlat * d.nphi) (hs : s.length = d.nx * d.nphi) :
    d.get_row_R_ph it v s = .error .abort := by
  unfold get_row_R_ph
  have h1 : cassert d.ndebug (v.length == d.nFull) = .ok () := cassert_true _ _ (by simp [hv, h.nFull_eq, total])
  have hne2 : d.nx * d.nphi ≠ d.nx * d.nlat := fun he => hne (Nat.eq_of_mul_eq_mul_left h.nx_pos he)
  have h2 : cassert d.ndebug (s.length == umul d.nx d.nlat) = .error .abort := by
    simp [cassert, hnd, hs, h.nxnlat, hne2]
  rw [h1, h2]; rfl

/-- C06, the other side of the defect: the size the assertion demands (`nx*nlat`) is overrun when
`nlat < nphi` - the access past the end happens with assertions on. -/
theorem C06_get_row_R_ph_demanded_size_overruns (d : Dims) (h : d.Ok) (it : Nat) (ht : it < d.nlat)
    (hlt : d.nlat < d.nphi) (v s : List α) (hv : v.length = d.nx * d.nlat * d.nphi)
    (hs : s.length = d.nx * d.nlat) : d.get_row_R_ph it v s = .error .ub := by
  unfold get_row_R_ph
  rw [cassert_true _ _ (by simp [hv, h.nFull_eq, total]), cassert_true _ _ (by simp [hs, h.nxnlat])]
  simp only [ok_bind]
  generalize hb : (fun ix (out : List α) => forRange 0 d.nphi out fun ip out => do
    let x ← rd v (d.indx_R_th_ph ix it ip)
    wr out (d.indx_r_ph ix ip) x) = b
  -- the length is preserved as long as the loop succeeds
  have hlen1 : ∀ c i ix w w', w.length = d.nx * d.nlat → forN c i w (fun ip out => do
      let x ← rd v (d.indx_R_th_ph ix it ip)
      wr out (d.indx_r_ph ix ip) x) = .ok w' → w'.length = d.nx * d.nlat := by
    intro c
    induction c with
    | zero => intro i ix w w' hw he; simp only [forN] at he; cases he; exact hw
    | succ c ih =>
      intro i ix w w' hw he
      simp only [forN] at he
      cases hx : rd v (d.indx_R_th_ph ix it i) with
      | error e => rw [hx] at he; cases he
      | ok x =>
        rw [hx] at he
        simp only [ok_bind] at he
        cases hx2 : wr w (d.indx_r_ph ix i) x with
        | error e => rw [hx2] at he; cases he
        | ok w2 =>
          rw [hx2] at he
          refine ih _ _ _ _ ?_ he
          unfold wr at hx2
          split at hx2
          · cases hx2; simp [hw]
          · cases hx2
  have hlen : ∀ c i w w', w.length = d.nx * d.nlat → forN c i w b = .ok w' → w'.length = d.nx * d.nlat := by
    intro c
    induction c with
    | zero => intro i w w' hw he; simp only [forN] at he; cases he; exact hw
    | succ c ih =>
      intro i w w' hw he
      simp only [forN] at he
      cases hx : b i w with
      | error e => rw [hx] at he; cases he
      | ok w2 =>
        rw [hx] at he
        refine ih _ _ _ ?_ he
        rw [← hb] at hx
        exact hlen1 _ _ _ _ _ hw hx
  have hub1 : ∀ ix c i w e, forN c i w (fun ip out => do
      let x ← rd v (d.indx_R_th_ph ix it ip)
      wr out (d.indx_r_ph ix ip) x) = .error e → e = .ub := by
    intro ix
    apply forN_err
    intro i w e he
    cases hx : rd v (d.indx_R_th_ph ix it i) with
    | error e => rw [hx] at he; cases he; exact rd_err hx
    | ok x => rw [hx] at he; exact wr_err he
  have hub : ∀ c i w e, forN c i w b = .error e → e = .ub := by
    apply forN_err
    intro i w e he
    rw [← hb] at he
    exact hub1 _ _ _ _ _ he
  -- consider the last row
  have hx0 : d.nx - 1 < d.nx := by have := h.nx_pos; omega
  rw [forRange_split (Nat.zero_le (d.nx - 1)) (by omega)]
  cases h1 : forRange 0 (d.nx - 1) s b with
  | error e => cases hub _ _ _ _ h1; rfl
  | ok w =>
    have hw := hlen _ _ _ _ hs h1
    simp only
    have hlast : b (d.nx - 1) w = .error .ub := by
      rw [← hb]
      simp only
      have hp0 : d.nphi - 1 < d.nphi := by omega
      rw [forRange_split (Nat.zero_le (d.nphi - 1)) (by omega)]
      cases h2 : forRange 0 (d.nphi - 1) w _ with
      | error e => cases hub1 _ _ _ _ _ h2; rfl
      | ok w3 =>
        have hw3 := hlen1 _ _ _ _ _ hw h2
        refine forRange_first_err hp0 ?_
        rw [h.rd3 hv ⟨hx0, ht, hp0⟩, ok_bind, h.indx_rph hx0 hp0, wr_ub]
        rw [hw3]
        obtain ⟨x, hx⟩ : ∃ x, d.nx = x + 1 := ⟨d.nx - 1, by omega⟩
        obtain ⟨p, hp⟩ : ∃ p, d.nphi = p + 1 := ⟨d.nphi - 1, by omega⟩
        have : d.nlat ≤ p := by omega
        rw [hx, hp]
        simp only [Nat.add_sub_cancel]
        nlinarith
    exact forRange_first_err hx0 hlast

/-- C06: storing an (R,phi) slab is correct on every grid. -/
theorem C06_set_row_R_ph (d : Dims) (h : d.Ok) (it : Nat) (ht : it < d.nlat)
    (v s : List α) (hv : v.length = d.nx * d.nlat * d.nphi) (hs : s.length = d.nx * d.nphi) :
    ∃ w, d.set_row_R_ph it s v = .ok w ∧ w.length = d.nx * d.nlat * d.nphi ∧
      ∀ ix it' ip, d.InR ix it' ip →
        d.at3 w ix it' ip = if it' = it then gv s (d.indx_r_ph ix ip) else d.at3 v ix it' ip := by
  refine ⟨_, h.set_row_R_ph_eq ht hs hv, mk3_length _, fun ix it' ip hr => ?_⟩
  rw [h.at3_mk3 hr, h.indx_rph hr.1 hr.2.2]

example : (exD true).Ok ∧ (exD true).ndebug = false ∧ (exD true).nphi ≠ (exD true).nlat ∧
    (exD true).nlat < (exD true).nphi := ⟨exD_ok _, rfl, by decide, by decide⟩

end rows
end SFK
