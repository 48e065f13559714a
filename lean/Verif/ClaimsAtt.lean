import Verif.Att
import Verif.ExactFft
import Verif.ClaimsReal
import Verif.Superpos
import Verif.KernelRel
import Verif.AnnuThms
import Mathlib.Algebra.BigOperators.Field

/-
Claims about absorption: C23, C43.
-/

namespace Dream
open Arith Finset

/-! ### The response in exact arithmetic -/

/-- The area under the attenuated unit pulse is one: absorption does not change the response at
frequency zero. -/
theorem attResp_sum (P : AttPar ℝ) (h1 : 1 ≤ P.len) (r : ℝ) (it : ℤ) :
    ∑ i ∈ range P.len, attResp exactLib P r it i = 1 := by
  have hN : (P.len : ℝ) ≠ 0 := by exact_mod_cast (by omega : P.len ≠ 0)
  simp only [attResp, exactLib, r_div, r_ofInt, Int.cast_natCast]
  rw [← Finset.sum_div, div_eq_one_iff_eq hN]
  unfold idftHalf
  rw [← Complex.re_sum, Finset.sum_comm]
  have : ∀ k ∈ range P.len, (∑ i ∈ range P.len, hermExt P.len (fun k => toC (if k ≤ P.len / 2 then
      attHalf P r it k else (lit 0, lit 0))) k * root P.len ((k * i : ℕ) : ℤ)) =
      if k = 0 then (P.len : ℂ) else 0 := by
    intro k hk
    rw [mem_range] at hk
    rw [← Finset.mul_sum]
    have e : ∀ i : ℕ, root P.len ((k * i : ℕ) : ℤ) = root P.len (i * (k : ℤ)) := by
      intro i; congr 1; push_cast; ring
    simp only [e]
    rw [root_sum P.len h1]
    by_cases hk0 : k = 0
    · subst hk0
      have hz : toC (1, 0) = 1 := by apply Complex.ext <;> simp [toC]
      simp [hermExt, attHalf, hz]
    · rw [if_neg hk0, if_neg, mul_zero]
      intro hd
      have := Int.le_of_dvd (by omega) hd
      omega
  rw [Finset.sum_congr rfl this, Finset.sum_ite_eq' (range P.len) 0]
  rw [if_pos (mem_range.2 (by omega))]
  exact Complex.natCast_re _

/-- The unattenuated unit pulse (alpha = 0): one sample with value one, where index and arrival
index agree modulo the length. -/
theorem attResp_lossless (P : AttPar ℝ) (h1 : 1 ≤ P.len) (hdt : P.dt ≠ 0) (ha : P.alpha = 0)
    (r : ℝ) (it : ℤ) (i : ℕ) :
    attResp exactLib P r it i = if (P.len : ℤ) ∣ (i : ℤ) - it then 1 else 0 := by
  have hN : (P.len : ℝ) ≠ 0 := by exact_mod_cast (by omega : P.len ≠ 0)
  have hNc : (P.len : ℂ) ≠ 0 := by exact_mod_cast (by omega : P.len ≠ 0)
  -- coefficients
  have hcoef : ∀ k : ℕ, toC (attCoef P r it k) = root P.len (-(k * it)) := by
    intro k
    have hph : (it : ℝ) * (P.dt * (1 / 1000000)) *
        ((k : ℝ) * (2 * Real.pi / (P.len : ℝ)) * (1000000 * P.dt⁻¹)) =
        2 * Real.pi * ((k : ℝ) * (it : ℝ)) / (P.len : ℝ) := by
      field_simp
    have hc : attCoef P r it k =
        (Real.cos (-(2 * Real.pi * ((k : ℝ) * (it : ℝ)) / (P.len : ℝ))),
          Real.sin (-(2 * Real.pi * ((k : ℝ) * (it : ℝ)) / (P.len : ℝ)))) := by
      simp only [attCoef, attTerms, r_div, r_mul, r_lit, r_pi, r_ofInt, r_exp, r_log, r_cos,
        r_sin, r_sub, r_neg, ha]
      norm_num
      rw [hph]
      exact ⟨rfl, rfl⟩
    rw [hc]
    unfold root
    have : (2 * Real.pi * Complex.I * ((-(k * it) : ℤ) : ℂ) / P.len) =
        ((-(2 * Real.pi * ((k : ℝ) * (it : ℝ)) / (P.len : ℝ)) : ℝ) : ℂ) * Complex.I := by
      push_cast; ring
    rw [this, Complex.exp_mul_I, ← Complex.ofReal_cos, ← Complex.ofReal_sin]
    apply Complex.ext
    · simp only [toC, Complex.add_re, Complex.ofReal_re, Complex.re_ofReal_mul, Complex.I_re]; ring
    · simp only [toC, Complex.add_im, Complex.ofReal_im, Complex.im_ofReal_mul, Complex.I_im]; ring
  have hconj : ∀ k : ℕ, toC (attConj P r it k) = (starRingEnd ℂ) (toC (attCoef P r it k)) := by
    intro k
    apply Complex.ext <;> simp [toC, attConj, attCoef]
  have hhalf : ∀ k : ℕ, k ≤ P.len / 2 → toC (attHalf P r it k) = root P.len (-(k * it)) := by
    intro k hk
    unfold attHalf
    split
    · next h0 =>
      subst h0
      rw [show (-(((0 : ℕ) : ℤ) * it)) = 0 by simp, root_zero]
      apply Complex.ext <;> simp [toC]
    · split
      · next h2 =>
        rw [hconj, hcoef, root_conj]
        have : -(-((k : ℤ) * it)) = -(k * it) + P.len * it := by
          rw [← h2]; push_cast; ring
        rw [this, root_add, root_period P.len h1, mul_one]
      · exact hcoef k
  simp only [attResp, exactLib, r_div, r_ofInt, Int.cast_natCast]
  have hext : ∀ k ∈ range P.len, hermExt P.len (fun k => toC (if k ≤ P.len / 2 then
      attHalf P r it k else (lit 0, lit 0))) k * root P.len ((k * i : ℕ) : ℤ) =
      root P.len (k * ((i : ℤ) - it)) := by
    intro k hk
    rw [mem_range] at hk
    have : hermExt P.len (fun k => toC (if k ≤ P.len / 2 then
      attHalf P r it k else (lit 0, lit 0))) k = root P.len (-(k * it)) := by
      unfold hermExt
      split
      · next h => simp only [if_pos h]; exact hhalf k h
      · next h =>
        simp only [if_pos (show P.len - k ≤ P.len / 2 by omega)]
        rw [hhalf (P.len - k) (by omega), root_conj]
        have : -(-(((P.len - k : ℕ) : ℤ) * it)) = -(k * it) + P.len * it := by
          rw [Nat.cast_sub hk.le]; ring
        rw [this, root_add, root_period P.len h1, mul_one]
    rw [this, ← root_add]
    congr 1
    push_cast
    ring
  unfold idftHalf
  rw [Finset.sum_congr rfl hext, root_sum P.len h1]
  split
  · rw [Complex.natCast_re, div_self hN]
  · simp


/-! ### C23: whole kernels -/

/-- The result of a kernel call, sample by sample: the same code, and column sums that differ by
what they differed before. -/
theorem onCol_area (k : Kern ℝ) (nt : ℕ) (ty : IdxTy) (level : ErrorLevel) (P : AttPar ℝ)
    (h1 : 1 ≤ nt) (hP : P.len = nt) (p : Par ℝ) (xo yo zo : ℝ) (fuel : ℕ) (c : ℕ → ℝ) :
    OutRel (StRel fun c₁ c₂ => ∑ i ∈ range nt, c₁ i = ∑ i ∈ range nt, c₂ i)
      (k.onCol nt ty level (some (attResp exactLib P)) p xo yo zo fuel c)
      (k.onCol nt ty level none p xo yo zo fuel c) := by
  refine Kern.onCol_rel (R := fun c₁ c₂ => ∑ i ∈ range nt, c₁ i = ∑ i ∈ range nt, c₂ i)
    k nt ty level (some (attResp exactLib P)) none ⟨rfl, rfl, rfl, ?_⟩ p xo yo zo fuel c c rfl
  intro r it ai m₁ m₂ h0 hnt hm
  have hnt' : it < (nt : ℤ) := hnt
  show (∑ i ∈ range nt, colAtt nt (attResp exactLib P r it) ai m₁ i) =
    ∑ i ∈ range nt, colAdd it.toNat ai m₂ i
  have e1 : ∑ i ∈ range nt, colAtt nt (attResp exactLib P r it) ai m₁ i =
      ∑ i ∈ range nt, m₁ i + ai := by
    have : ∀ i ∈ range nt, colAtt nt (attResp exactLib P r it) ai m₁ i =
        m₁ i + ai * attResp exactLib P r it i := by
      intro i hi
      rw [mem_range] at hi
      simp [colAtt, hi]
    rw [Finset.sum_congr rfl this, Finset.sum_add_distrib, ← Finset.mul_sum, ← hP,
      attResp_sum P (by omega), mul_one]
  have e2 : ∑ i ∈ range nt, colAdd it.toNat ai m₂ i = ∑ i ∈ range nt, m₂ i + ai := by
    have : ∀ i ∈ range nt, colAdd it.toNat ai m₂ i = m₂ i + if i = it.toNat then ai else 0 := by
      intro i _
      simp only [colAdd, r_add]
      split
      · next h => rw [h]
      · ring
    rw [Finset.sum_congr rfl this, Finset.sum_add_distrib, Finset.sum_ite_eq' (range nt) it.toNat,
      if_pos (mem_range.2 (by omega))]
  rw [e1, e2, hm]

/-- C23: absorption preserves the total area of the response.  In exact arithmetic, for every
transducer, error level, attenuation coefficient, step and geometry: if the lossless kernel ends
with `(m₁, e)` then the kernel with absorption ends with the same code `e`, and the samples of its
column add up to the same sum. -/
theorem C23_area_preserved (k : Kern ℝ) (nt : ℕ) (ty : IdxTy) (level : ErrorLevel) (P : AttPar ℝ)
    (h1 : 1 ≤ nt) (hP : P.len = nt) (p : Par ℝ) (xo yo zo : ℝ) (fuel base : ℕ) (m : Buf ℝ)
    (hb : base + nt ≤ m.size) (m₁ : Buf ℝ) (e : SIRError)
    (h : k.serial nt ty level none p xo yo zo fuel base m = .ok (m₁, e)) :
    ∃ m₂, k.serial nt ty level (some (attResp exactLib P)) p xo yo zo fuel base m = .ok (m₂, e) ∧
      ∑ i ∈ range nt, m₂.data (base + i) = ∑ i ∈ range nt, m₁.data (base + i) := by
  rw [Kern.serial_eq _ _ _ _ _ _ _ _ _ _ _ _ hb] at h ⊢
  have hr := onCol_area k nt ty level P h1 hP p xo yo zo fuel (m.getCol base nt)
  cases ho : k.onCol nt ty level none p xo yo zo fuel (m.getCol base nt) with
  | ub e => rw [ho] at h; simp at h
  | fuel => rw [ho] at h; simp at h
  | ok s =>
    rw [ho] at h hr
    simp only [Outcome.map, Outcome.ok.injEq, liftS, Prod.mk.injEq] at h
    obtain ⟨rfl, rfl⟩ := h
    cases ho2 : k.onCol nt ty level (some (attResp exactLib P)) p xo yo zo fuel
        (m.getCol base nt) with
    | ub e => rw [ho2] at hr; exact hr.elim
    | fuel => rw [ho2] at hr; exact hr.elim
    | ok t =>
      rw [ho2] at hr
      obtain ⟨hsum, he⟩ := hr
      refine ⟨m.setCol base nt t.1, by rw [← he]; rfl, ?_⟩
      have e : ∀ (c : ℕ → ℝ), ∑ i ∈ range nt, (m.setCol base nt c).data (base + i) =
          ∑ i ∈ range nt, c i := by
        intro c
        apply Finset.sum_congr rfl
        intro i hi
        exact Buf.setCol_data_in _ _ _ _ _ (mem_range.1 hi)
      rw [e, e]
      exact hsum

/-- C23: without attenuation (`alpha = 0`) the lossy kernel is the lossless kernel: same code and
same samples, for every transducer, error level and geometry, in exact arithmetic. -/
theorem C23_zero_alpha (k : Kern ℝ) (nt : ℕ) (ty : IdxTy) (level : ErrorLevel) (P : AttPar ℝ)
    (h1 : 1 ≤ nt) (hP : P.len = nt) (ha : P.alpha = 0) (hdt : P.dt ≠ 0) (p : Par ℝ)
    (xo yo zo : ℝ) (fuel base : ℕ) (m : Buf ℝ) (hb : base + nt ≤ m.size) :
    k.serial nt ty level (some (attResp exactLib P)) p xo yo zo fuel base m =
      k.serial nt ty level none p xo yo zo fuel base m := by
  rw [Kern.serial_eq _ _ _ _ _ _ _ _ _ _ _ _ hb, Kern.serial_eq _ _ _ _ _ _ _ _ _ _ _ _ hb]
  have hr := Kern.onCol_rel (R := fun c₁ c₂ => c₁ = c₂) k nt ty level
    (some (attResp exactLib P)) none ⟨rfl, rfl, rfl, ?_⟩ p xo yo zo fuel (m.getCol base nt)
    (m.getCol base nt) rfl
  · cases ho : k.onCol nt ty level none p xo yo zo fuel (m.getCol base nt) <;>
    cases ho2 : k.onCol nt ty level (some (attResp exactLib P)) p xo yo zo fuel
        (m.getCol base nt) <;> rw [ho, ho2] at hr <;>
      first | exact hr.elim | (obtain ⟨a, b⟩ := hr; simp only [Outcome.map, liftS, a, b]) |
        (simp only [OutRel] at hr; rw [hr]) | rfl
  · intro r it ai m₁ m₂ h0 hnt hm
    have hnt' : it < (nt : ℤ) := hnt
    subst hm
    show colAtt nt (attResp exactLib P r it) ai m₁ = colAdd it.toNat ai m₁
    funext i
    simp only [colAtt, colAdd, r_add, r_mul]
    by_cases hi : i < nt
    · rw [if_pos hi, attResp_lossless P (by omega) hdt ha, hP]
      by_cases hie : i = it.toNat
      · rw [if_pos hie, if_pos ⟨0, by omega⟩, mul_one, hie]
      · rw [if_neg hie, if_neg, mul_zero, add_zero]
        rintro ⟨q, hq⟩
        have h2 : (i : ℤ) - it < nt := by omega
        have h3 : -(nt : ℤ) < (i : ℤ) - it := by omega
        rw [hq] at h2 h3
        have : q = 0 := by
          have : q < 1 := by nlinarith
          have : -1 < q := by nlinarith
          omega
        subst this
        omega
    · rw [if_neg hi, if_neg (by omega)]

-- A square piston of 1 mm2, point at distance 5 mm, with absorption 0.5 dB/(cm MHz): the call ends
-- normally and its column has the area of the lossless response.
example : ∃ r₁ r₂ e, (Kern.rect 1 1 1).serial 8 .signed .ignore none pairPar 4 0 3 2 0 (zeroBuf 8)
      = .ok (r₁, e) ∧
    (Kern.rect 1 1 1).serial 8 .signed .ignore (some (attResp exactLib ⟨8, 1, 0.5⟩)) pairPar 4 0 3 2 0
      (zeroBuf 8) = .ok (r₂, e) ∧
    ∑ i ∈ range 8, r₂.data (0 + i) = ∑ i ∈ range 8, r₁.data (0 + i) := by
  obtain ⟨r, e, h, _⟩ := pair_resp 4 (Or.inl rfl)
  obtain ⟨r₂, h2, h3⟩ := C23_area_preserved (Kern.rect 1 1 1) 8 .signed .ignore ⟨8, 1, 0.5⟩
    (by norm_num) rfl pairPar 4 0 3 2 0 (zeroBuf 8) (by simp [zeroBuf]) r e h
  exact ⟨r, r₂, e, h, h2, h3⟩

/-! ### C43: dream_att -/

variable {F : Type} [Arith F]

/-- What the argument checks of `dream_att` are meant to ensure. -/
structure AttCall.Sized (D : AttCall F) (m : Buf F) : Prop where
  len : 1 ≤ D.P.len
  ro : D.Ro.size = 3 * D.No
  delay : D.delay.size = 1 ∨ D.delay.size = D.No
  out : m.size = D.No * D.P.len

/-- Distance of observation point `n`. -/
def AttCall.dist (D : AttCall F) (n : ℕ) : F :=
  dist3 (D.Ro.data n) (D.Ro.data (n + D.No)) (D.Ro.data (n + 2 * D.No))

/-- Arrival time of observation point `n` in samples, plus one. -/
def AttCall.time (D : AttCall F) (n : ℕ) : F :=
  (D.dist n *. lit 1000 /. D.cp -. D.delay.data (if D.delay.size = 1 then 0 else n)) /. D.P.dt
    +. lit 1

theorem AttCall.arrive_eq (D : AttCall F) {m : Buf F} (hs : D.Sized m) (n : ℕ) (hn : n < D.No)
    (it : ℤ) (hit : castIdx D.ty (trunc (D.time n)) = .ok it) :
    D.arrive n = .ok (D.dist n, it) := by
  have h1 := hs.ro
  have h2 := hs.delay
  unfold AttCall.arrive
  rw [Buf.read_nat _ _ (by omega)]
  simp only [Outcome.bind]
  rw [Buf.read_nat _ _ (by omega)]
  simp only
  rw [Buf.read_nat _ _ (by omega)]
  simp only
  have hd : D.delay.read (if D.delay.size = 1 then 0 else (n : ℤ)) =
      .ok (D.delay.data (if D.delay.size = 1 then 0 else n)) := by
    split
    · next h => exact Buf.read_nat D.delay 0 (by omega)
    · next h => exact Buf.read_nat D.delay n (by omega)
  rw [hd]
  simp only [AttCall.time, AttCall.dist] at hit ⊢
  rw [Nat.one_mul, hit]

/-- C43 for an arbitrary arithmetic and FFT: `dream_att` accesses nothing outside its buffers, and
column `n` of the result is the attenuation response for the distance and arrival index of
observation point `n`, added once.  There is no bounds check on the arrival index. -/
theorem C43_columns (L : FFTLib F) (D : AttCall F) (xc : Buf (F × F)) (x m : Buf F)
    (hs : D.Sized m) (hxc : xc.size = D.P.len) (hx : x.size = D.P.len) (it : ℕ → ℤ)
    (hit : ∀ n, n < D.No → castIdx D.ty (trunc (D.time n)) = .ok (it n)) :
    ∃ m', dreamAtt L D xc x m = .ok m' ∧ m'.size = m.size ∧
      ∀ n, n < D.No → ∀ i, i < D.P.len → m'.data (n * D.P.len + i) =
        m.data (n * D.P.len + i) +. lit 1 *. attResp L D.P (D.dist n) (it n) i := by
  have hlen := hs.len
  obtain ⟨m', e1, e2, e3, _⟩ := forO_ok
    (fun n m => (D.arrive n).bind fun q =>
      att L D.P q.1 q.2 (lit 1) xc x (n * D.P.len) m)
    (fun k m' => m'.size = m.size ∧
      (∀ n, n < k → ∀ i, i < D.P.len → m'.data (n * D.P.len + i) =
        m.data (n * D.P.len + i) +. lit 1 *. attResp L D.P (D.dist n) (it n) i) ∧
      ∀ q, k * D.P.len ≤ q → m'.data q = m.data q) D.No 0 m
    (by
      intro n _ hn m1 ⟨g1, g2, g3⟩
      rw [Nat.zero_add] at hn
      have hin : n * D.P.len + D.P.len ≤ m1.size := by
        have : (n + 1) * D.P.len ≤ D.No * D.P.len := Nat.mul_le_mul_right _ hn
        rw [Nat.add_mul, Nat.one_mul] at this
        rw [g1, hs.out]
        exact this
      simp only [D.arrive_eq hs n hn (it n) (hit n hn), Outcome.bind]
      rw [att_ok L D.P hlen _ _ _ xc x hxc hx]
      have ha := attAdd_setCol m1 (n * D.P.len) D.P.len (m1.getCol (n * D.P.len) D.P.len)
        (attResp L D.P (D.dist n) (it n)) (lit 1) hin D.P.len (Nat.le_refl _)
      rw [Buf.setCol_getCol] at ha
      rw [ha]
      refine ⟨_, rfl, g1, ?_, ?_⟩
      · intro j hj i hi
        by_cases hjn : j = n
        · subst hjn
          rw [Buf.setCol_data_in _ _ _ _ _ hi]
          simp only [colAtt, if_pos hi, Buf.getCol]
          rw [g3 _ (by omega)]
        · have hlt : (j + 1) * D.P.len ≤ n * D.P.len := Nat.mul_le_mul_right _ (by omega)
          rw [Nat.add_mul, Nat.one_mul] at hlt
          have : (m1.setCol (n * D.P.len) D.P.len
              (colAtt D.P.len (attResp L D.P (D.dist n) (it n)) (lit 1)
                (m1.getCol (n * D.P.len) D.P.len))).data (j * D.P.len + i) =
              m1.data (j * D.P.len + i) := by
            simp only [Buf.setCol]
            rw [if_neg (by omega)]
          rw [this]
          exact g2 j (by omega) i hi
      · intro q hq
        rw [Nat.add_mul, Nat.one_mul] at hq
        simp only [Buf.setCol]
        rw [if_neg (by omega)]
        exact g3 q (by omega))
    ⟨rfl, fun n hn => by omega, fun _ _ => rfl⟩
  rw [Nat.zero_add] at e3
  exact ⟨m', e1, e2, e3⟩

/-- C43: in exact arithmetic every column of `dream_att` adds up to one, for every distance, delay
and attenuation: what does not fit into the column is wrapped around, not dropped. -/
theorem C43_area (D : AttCall ℝ) (xc : Buf (ℝ × ℝ)) (x m : Buf ℝ)
    (hs : D.Sized m) (hxc : xc.size = D.P.len) (hx : x.size = D.P.len) (it : ℕ → ℤ)
    (hit : ∀ n, n < D.No → castIdx D.ty (trunc (D.time n)) = .ok (it n))
    (hz : ∀ i, i < m.size → m.data i = 0) :
    ∃ m', dreamAtt exactLib D xc x m = .ok m' ∧
      ∀ n, n < D.No → ∑ i ∈ range D.P.len, m'.data (n * D.P.len + i) = 1 := by
  obtain ⟨m', e1, e2, e3⟩ := C43_columns exactLib D xc x m hs hxc hx it hit
  refine ⟨m', e1, fun n hn => ?_⟩
  rw [← attResp_sum D.P hs.len (D.dist n) (it n)]
  apply Finset.sum_congr rfl
  intro i hi
  rw [mem_range] at hi
  have : n * D.P.len + i < m.size := by
    have : (n + 1) * D.P.len ≤ D.No * D.P.len := Nat.mul_le_mul_right _ hn
    rw [Nat.add_mul, Nat.one_mul] at this
    rw [hs.out]; omega
  rw [e3 n hn i hi, hz _ this]
  simp

/-- C43: without attenuation column `n` holds a single one, at the index congruent to the
truncated arrival time plus one modulo the length of the column: one sample later than the index
the transducer functions use (they round the arrival time without adding one), and a pulse arriving
after the end of the column appears at a wrong, early time. -/
theorem C43_pulse (D : AttCall ℝ) (xc : Buf (ℝ × ℝ)) (x m : Buf ℝ)
    (hs : D.Sized m) (hxc : xc.size = D.P.len) (hx : x.size = D.P.len) (it : ℕ → ℤ)
    (hit : ∀ n, n < D.No → castIdx D.ty (trunc (D.time n)) = .ok (it n))
    (hz : ∀ i, i < m.size → m.data i = 0) (ha : D.P.alpha = 0) (hdt : D.P.dt ≠ 0) :
    ∃ m', dreamAtt exactLib D xc x m = .ok m' ∧
      ∀ n, n < D.No → ∀ i, i < D.P.len → m'.data (n * D.P.len + i) =
        if i = (it n % D.P.len).toNat then 1 else 0 := by
  obtain ⟨m', e1, e2, e3⟩ := C43_columns exactLib D xc x m hs hxc hx it hit
  refine ⟨m', e1, fun n hn i hi => ?_⟩
  have hlen := hs.len
  have : n * D.P.len + i < m.size := by
    have : (n + 1) * D.P.len ≤ D.No * D.P.len := Nat.mul_le_mul_right _ hn
    rw [Nat.add_mul, Nat.one_mul] at this
    rw [hs.out]; omega
  rw [e3 n hn i hi, hz _ this, attResp_lossless D.P hlen hdt ha]
  have hpos : (0 : ℤ) < D.P.len := by omega
  have hm0 := Int.emod_nonneg (it n) (by omega : (D.P.len : ℤ) ≠ 0)
  have hm1 := Int.emod_lt_of_pos (it n) hpos
  have hiff : (D.P.len : ℤ) ∣ (i : ℤ) - it n ↔ i = (it n % D.P.len).toNat := by
    have hi' : (i : ℤ) % D.P.len = i := Int.emod_eq_of_lt (by omega) (by omega)
    rw [Int.dvd_iff_emod_eq_zero, ← Int.emod_eq_emod_iff_emod_sub_eq_zero, hi']
    omega
  simp only [hiff, r_add, r_lit, r_mul]
  split <;> simp

/-- One point at distance 3 mm, sound speed 1 mm/us, 1 us samples, 4 samples. -/
noncomputable def wrapCall : AttCall ℝ where
  P := ⟨4, 1, 0⟩
  No := 1
  Ro := { size := 3, data := fun i => if i = 2 then 3 else 0 }
  cp := 1000
  delay := { size := 1, data := fun _ => 0 }
  ty := .signed

-- The pulse arrives at sample 3, the last one of the column; `dream_att` puts it at sample 0.
example : ∃ m', dreamAtt exactLib wrapCall ⟨4, fun _ => (7, 7)⟩ ⟨4, fun _ => 7⟩ (zeroBuf 4) = .ok m' ∧
    m'.data 0 = 1 ∧ m'.data 3 = 0 := by
  have ht : wrapCall.time 0 = 4 := by
    simp only [AttCall.time, AttCall.dist, wrapCall, dist3, r_add, r_mul, r_div, r_sub, r_lit, r_sqrt]
    norm_num
    rw [show (9 : ℝ) = 3 ^ 2 by norm_num, Real.sqrt_sq (by norm_num)]
    norm_num
  obtain ⟨m', h1, h2⟩ := C43_pulse wrapCall ⟨4, fun _ => (7, 7)⟩ ⟨4, fun _ => 7⟩ (zeroBuf 4)
    ⟨by decide, rfl, Or.inl rfl, rfl⟩ rfl rfl (fun _ => 4)
    (by
      intro n hn
      have : n = 0 := by have : n < 1 := hn; omega
      subst this
      have : truncR (4 : ℝ) = 4 := by
        unfold truncR
        rw [if_pos (by norm_num)]
        exact_mod_cast Int.floor_intCast (R := ℝ) 4
      rw [ht, r_trunc, this]
      decide)
    (fun i _ => rfl) rfl (by simp [wrapCall])
  refine ⟨m', h1, ?_, ?_⟩
  · have := h2 0 (by decide) 0 (by decide)
    simpa [wrapCall] using this
  · have := h2 0 (by decide) 3 (by decide)
    simpa [wrapCall] using this

end Dream
