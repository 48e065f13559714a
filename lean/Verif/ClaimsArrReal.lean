import Verif.ClaimsArr
import Verif.ClaimsReal
import Verif.Superpos

/-
Arrays in exact arithmetic: C15 (superposition), C17 (focusing), C18 (steering), C19
(apodization), C20 (aperture).
-/

namespace Dream
open Arith Finset

/-! ### C20: aperture -/

theorem maxLoop_real (G : Buf ℝ) (off k : ℕ) : ∀ (i : ℕ) (cur x : ℝ),
    maxLoop G off k i cur = .ok x →
      cur ≤ x ∧ (∀ j, i ≤ j → j < i + k → |G.data (off + j)| ≤ x) ∧
      (x = cur ∨ ∃ j, i ≤ j ∧ j < i + k ∧ |G.data (off + j)| = x) := by
  induction k with
  | zero =>
    intro i cur x h
    simp only [maxLoop, Outcome.ok.injEq] at h
    subst h
    exact ⟨le_refl _, fun j h1 h2 => by omega, Or.inl rfl⟩
  | succ k ih =>
    intro i cur x h
    simp only [maxLoop, Buf.read] at h
    split at h
    · simp only [Outcome.bind, Int.toNat_natCast] at h
      obtain ⟨h1, h2, h3⟩ := ih _ _ _ h
      simp only [r_lt, r_abs] at h1 h3
      have ha : cur ≤ (if cur < |G.data (off + i)| then |G.data (off + i)| else cur) := by
        split <;> linarith
      have hb : |G.data (off + i)| ≤
          (if cur < |G.data (off + i)| then |G.data (off + i)| else cur) := by
        split <;> linarith
      refine ⟨le_trans ha h1, ?_, ?_⟩
      · intro j hj1 hj2
        by_cases hj : j = i
        · subst hj; exact le_trans hb h1
        · exact h2 j (by omega) (by omega)
      · rcases h3 with h3 | ⟨j, hj1, hj2, hj3⟩
        · by_cases hc : cur < |G.data (off + i)|
          · rw [if_pos hc] at h3
            exact Or.inr ⟨i, le_refl _, by omega, h3.symm⟩
          · rw [if_neg hc] at h3
            exact Or.inl h3
        · exact Or.inr ⟨j, by omega, by omega, hj3⟩
    · simp at h

/-- C20: `max_dim_arr` returns the largest `|gx|`, the largest `|gy|` (both bounds attained) and
a radius that bounds the distance of every element from the centre. -/
theorem C20_aperture (G : Buf ℝ) (num : ℕ) (h1 : 1 ≤ num) (hG : 3 * num ≤ G.size) :
    ∃ d, maxDimArr G num = .ok d ∧
      (∀ n, n < num → |G.data n| ≤ d.xmax) ∧ (∃ n, n < num ∧ |G.data n| = d.xmax) ∧
      (∀ n, n < num → |G.data (num + n)| ≤ d.ymax) ∧
      (∃ n, n < num ∧ |G.data (num + n)| = d.ymax) ∧
      d.rmax = Real.sqrt (d.xmax ^ 2 + d.ymax ^ 2) ∧
      (∀ n, n < num → Real.sqrt (G.data n ^ 2 + G.data (num + n) ^ 2) ≤ d.rmax) := by
  obtain ⟨d, hd⟩ := maxDimArr_ok G num h1 hG
  have h0 := hd
  unfold maxDimArr at hd
  have r0 : G.read 0 = .ok (G.data 0) := by
    simp only [Buf.read]; rw [if_pos (by omega)]; rfl
  have r1 : G.read (num : ℤ) = .ok (G.data num) := by
    simp only [Buf.read]; rw [if_pos (by omega)]; simp
  rw [r0] at hd; simp only [Outcome.bind] at hd
  cases hx : maxLoop G 0 (num - 1) 1 (Arith.abs (G.data 0)) with
  | ub e => rw [hx] at hd; simp at hd
  | fuel => rw [hx] at hd; simp at hd
  | ok xm =>
    rw [hx] at hd; simp only at hd
    rw [r1] at hd; simp only at hd
    cases hy : maxLoop G num (num - 1) 1 (Arith.abs (G.data num)) with
    | ub e => rw [hy] at hd; simp at hd
    | fuel => rw [hy] at hd; simp at hd
    | ok ym =>
      rw [hy] at hd
      simp only [Outcome.ok.injEq] at hd
      obtain ⟨a1, a2, a3⟩ := maxLoop_real G 0 _ _ _ _ hx
      obtain ⟨b1, b2, b3⟩ := maxLoop_real G num _ _ _ _ hy
      simp only [r_abs, Nat.zero_add] at a1 a2 a3 b1 b2 b3
      subst hd
      have hxb : ∀ n, n < num → |G.data n| ≤ xm := by
        intro n hn
        rcases Nat.eq_zero_or_pos n with h | h
        · subst h; exact a1
        · exact a2 n h (by omega)
      have hyb : ∀ n, n < num → |G.data (num + n)| ≤ ym := by
        intro n hn
        rcases Nat.eq_zero_or_pos n with h | h
        · subst h; exact b1
        · exact b2 n h (by omega)
      refine ⟨_, h0, hxb, ?_, hyb, ?_, ?_, ?_⟩
      · rcases a3 with h | ⟨j, hj1, hj2, hj3⟩
        · exact ⟨0, by omega, h.symm⟩
        · exact ⟨j, by omega, hj3⟩
      · rcases b3 with h | ⟨j, hj1, hj2, hj3⟩
        · exact ⟨0, by omega, h.symm⟩
        · exact ⟨j, by omega, hj3⟩
      · simp only [r_sqrt, r_add, r_mul]
        congr 1; ring
      · intro n hn
        simp only [r_sqrt, r_add, r_mul]
        apply Real.sqrt_le_sqrt
        have e1 := sq_le_sq' (by linarith [neg_abs_le (G.data n), hxb n hn] : -xm ≤ G.data n)
          (le_trans (le_abs_self _) (hxb n hn))
        have e2 := sq_le_sq' (by linarith [neg_abs_le (G.data (num + n)), hyb n hn] :
          -ym ≤ G.data (num + n)) (le_trans (le_abs_self _) (hyb n hn))
        nlinarith

/-- The aperture data of an array are consistent with an element at `(gx, gy)`. -/
structure Dims.Covers (d : Dims ℝ) (gx gy : ℝ) : Prop where
  x : |gx| ≤ d.xmax
  y : |gy| ≤ d.ymax
  r : gx ^ 2 + gy ^ 2 ≤ d.rmax ^ 2

theorem covers_of_maxDim (G : Buf ℝ) (num : ℕ) (h1 : 1 ≤ num) (hG : 3 * num ≤ G.size)
    (d : Dims ℝ) (hd : maxDimArr G num = .ok d) (n : ℕ) (hn : n < num) :
    d.Covers (G.data n) (G.data (num + n)) := by
  obtain ⟨d', h0, h2, _, h3, _, h4, h5⟩ := C20_aperture G num h1 hG
  rw [hd] at h0
  simp only [Outcome.ok.injEq] at h0
  subst h0
  refine ⟨h2 n hn, h3 n hn, ?_⟩
  have h6 := h5 n hn
  have h7 : 0 ≤ d.rmax := by rw [h4]; exact Real.sqrt_nonneg _
  have h8 := (Real.sqrt_le_left h7).mp h6
  exact h8

example : ∃ d, maxDimArr { size := 6, data := fun i => ([-3, 1, 2, -4, 0, 0] : List ℝ).getD i 0 }
    2 = .ok d ∧ d.xmax = 3 ∧ d.ymax = 4 ∧ d.rmax = 5 := by
  obtain ⟨d, h0, h1, ⟨n, hn, h2⟩, h3, ⟨k, hk, h4⟩, h5, _⟩ := C20_aperture
    { size := 6, data := fun i => ([-3, 1, 2, -4, 0, 0] : List ℝ).getD i 0 } 2 (by norm_num)
    (by norm_num)
  have hx : d.xmax = 3 := by
    have a0 := h1 0 (by norm_num)
    have hn' : n = 0 ∨ n = 1 := by omega
    rcases hn' with rfl | rfl <;> norm_num at a0 h2 ⊢ <;> linarith
  have hy : d.ymax = 4 := by
    have a1 := h3 1 (by norm_num)
    have hk' : k = 0 ∨ k = 1 := by omega
    rcases hk' with rfl | rfl <;> norm_num at a1 h4 ⊢ <;> linarith
  refine ⟨d, h0, hx, hy, ?_⟩
  rw [h5, hx, hy]
  rw [show (3 : ℝ) ^ 2 + 4 ^ 2 = 5 ^ 2 by norm_num]
  exact Real.sqrt_sq (by norm_num)

/-! ### C17: focusing -/

theorem focusing_x (focal gx gy : ℝ) (d : Dims ℝ) (cp : ℝ) :
    focusing .x focal gx gy d cp =
      (Real.sqrt (d.xmax ^ 2 + focal ^ 2) - Real.sqrt (gx ^ 2 + focal ^ 2)) * 1000 / cp := by
  simp only [focusing, r_mul, r_add, r_sub, r_div, r_sqrt, r_lit]
  push_cast; simp only [pow_two]

theorem focusing_y (focal gx gy : ℝ) (d : Dims ℝ) (cp : ℝ) :
    focusing .y focal gx gy d cp =
      (Real.sqrt (d.ymax ^ 2 + focal ^ 2) - Real.sqrt (gy ^ 2 + focal ^ 2)) * 1000 / cp := by
  simp only [focusing, r_mul, r_add, r_sub, r_div, r_sqrt, r_lit]
  push_cast; simp only [pow_two]

theorem focusing_xy (focal gx gy : ℝ) (d : Dims ℝ) (cp : ℝ) :
    focusing .xy focal gx gy d cp =
      (Real.sqrt (d.rmax ^ 2 + focal ^ 2) - Real.sqrt (gx ^ 2 + gy ^ 2 + focal ^ 2)) * 1000
        / cp := by
  simp only [focusing, r_mul, r_add, r_sub, r_div, r_sqrt, r_lit]
  push_cast; simp only [pow_two]

theorem focusing_x_y (focal gx gy : ℝ) (d : Dims ℝ) (cp : ℝ) :
    focusing .x_y focal gx gy d cp =
      (Real.sqrt (d.rmax ^ 2 + focal ^ 2) -
        (Real.sqrt (gx ^ 2 + focal ^ 2) + Real.sqrt (gy ^ 2 + focal ^ 2))) * 1000 / cp := by
  simp only [focusing, r_mul, r_add, r_sub, r_div, r_sqrt, r_lit]
  push_cast; simp only [pow_two]

theorem scaled_nonneg {x cp : ℝ} (hcp : 0 < cp) (h : 0 ≤ x) : 0 ≤ x * 1000 / cp := by positivity

theorem scaled_le {x y cp : ℝ} (hcp : 0 < cp) (h : x ≤ y) : x * 1000 / cp ≤ y * 1000 / cp := by
  apply div_le_div_of_nonneg_right _ hcp.le; linarith

/-- C17: with the aperture computed from the grid and `cp > 0`, the focusing delay of every
element is non-negative, vanishes at the edge of the aperture, and no element is delayed more
than one at the centre. -/
theorem C17_focusing (G : Buf ℝ) (num : ℕ) (h1 : 1 ≤ num) (hG : 3 * num ≤ G.size)
    (d : Dims ℝ) (hd : maxDimArr G num = .ok d) (focal cp : ℝ) (hcp : 0 < cp) (met : FocusMet)
    (hm : met = .x ∨ met = .y ∨ met = .xy) (n : ℕ) (hn : n < num) :
    0 ≤ focusing met focal (G.data n) (G.data (num + n)) d cp ∧
    focusing met focal (G.data n) (G.data (num + n)) d cp ≤ focusing met focal 0 0 d cp ∧
    (met = .x → |G.data n| = d.xmax →
      focusing met focal (G.data n) (G.data (num + n)) d cp = 0) ∧
    (met = .y → |G.data (num + n)| = d.ymax →
      focusing met focal (G.data n) (G.data (num + n)) d cp = 0) ∧
    (met = .xy → |G.data n| = d.xmax → |G.data (num + n)| = d.ymax →
      focusing met focal (G.data n) (G.data (num + n)) d cp = 0) := by
  have hc := covers_of_maxDim G num h1 hG d hd n hn
  have hr : d.rmax ^ 2 = d.xmax ^ 2 + d.ymax ^ 2 := by
    obtain ⟨d', h0, _, _, _, _, h4, _⟩ := C20_aperture G num h1 hG
    rw [hd] at h0
    simp only [Outcome.ok.injEq] at h0
    subst h0
    rw [h4, Real.sq_sqrt (by positivity)]
  have sx : G.data n ^ 2 ≤ d.xmax ^ 2 := by
    rw [← sq_abs (G.data n)]; exact pow_le_pow_left₀ (abs_nonneg _) hc.x 2
  have sy : G.data (num + n) ^ 2 ≤ d.ymax ^ 2 := by
    rw [← sq_abs (G.data (num + n))]; exact pow_le_pow_left₀ (abs_nonneg _) hc.y 2
  rcases hm with rfl | rfl | rfl
  · simp only [focusing_x]
    refine ⟨scaled_nonneg hcp (sub_nonneg.mpr (Real.sqrt_le_sqrt (by linarith))), ?_, ?_,
      by simp, by simp⟩
    · exact scaled_le hcp (sub_le_sub_left (Real.sqrt_le_sqrt (by nlinarith)) _)
    · intro _ h
      rw [← h, sq_abs]; simp
  · simp only [focusing_y]
    refine ⟨scaled_nonneg hcp (sub_nonneg.mpr (Real.sqrt_le_sqrt (by linarith))), ?_, by simp,
      ?_, by simp⟩
    · exact scaled_le hcp (sub_le_sub_left (Real.sqrt_le_sqrt (by nlinarith)) _)
    · intro _ h
      rw [← h, sq_abs]; simp
  · simp only [focusing_xy]
    refine ⟨scaled_nonneg hcp (sub_nonneg.mpr (Real.sqrt_le_sqrt (by linarith))), ?_, by simp,
      by simp, ?_⟩
    · exact scaled_le hcp (sub_le_sub_left (Real.sqrt_le_sqrt (by nlinarith)) _)
    · intro _ h h'
      have e : d.rmax ^ 2 = G.data n ^ 2 + G.data (num + n) ^ 2 := by
        rw [hr, ← h, ← h', sq_abs, sq_abs]
      rw [e]; simp

/-- C17, what focusing is for: delay plus travel time to the focal point is the same for every
element (method `x`: focal line; `xy`: focal point at depth `focal` on the axis). -/
theorem C17_equal_arrival (focal gx gy gx' gy' cp : ℝ) (d : Dims ℝ) :
    focusing .x focal gx gy d cp + Real.sqrt (gx ^ 2 + focal ^ 2) * 1000 / cp =
      focusing .x focal gx' gy' d cp + Real.sqrt (gx' ^ 2 + focal ^ 2) * 1000 / cp ∧
    focusing .y focal gx gy d cp + Real.sqrt (gy ^ 2 + focal ^ 2) * 1000 / cp =
      focusing .y focal gx' gy' d cp + Real.sqrt (gy' ^ 2 + focal ^ 2) * 1000 / cp ∧
    focusing .xy focal gx gy d cp + Real.sqrt (gx ^ 2 + gy ^ 2 + focal ^ 2) * 1000 / cp =
      focusing .xy focal gx' gy' d cp + Real.sqrt (gx' ^ 2 + gy' ^ 2 + focal ^ 2) * 1000 / cp := by
  simp only [focusing_x, focusing_y, focusing_xy]
  refine ⟨?_, ?_, ?_⟩ <;> ring

/-- C17: with method `x+y` and a focal depth that is not small compared to the aperture, the
delay of every element is negative. -/
theorem C17_x_plus_y_negative (focal gx gy cp : ℝ) (d : Dims ℝ) (hcp : 0 < cp)
    (h : d.rmax ^ 2 < 3 * focal ^ 2) : focusing .x_y focal gx gy d cp < 0 := by
  rw [focusing_x_y]
  have h1 : Real.sqrt (d.rmax ^ 2 + focal ^ 2) < 2 * |focal| := by
    rw [Real.sqrt_lt' (by
      have : 0 < focal ^ 2 := by nlinarith [sq_nonneg d.rmax]
      have : focal ≠ 0 := by rintro rfl; norm_num at this
      positivity)]
    rw [mul_pow, sq_abs]; nlinarith
  have h2 : |focal| ≤ Real.sqrt (gx ^ 2 + focal ^ 2) :=
    Real.abs_le_sqrt (by nlinarith [sq_nonneg gx])
  have h3 : |focal| ≤ Real.sqrt (gy ^ 2 + focal ^ 2) :=
    Real.abs_le_sqrt (by nlinarith [sq_nonneg gy])
  apply div_neg_of_neg_of_pos _ hcp
  nlinarith

example : ∃ d : Dims ℝ, d.rmax ^ 2 < 3 * (10 : ℝ) ^ 2 ∧ d.Covers 3 4 :=
  ⟨⟨3, 4, 5⟩, by norm_num, by norm_num, by norm_num, by norm_num⟩

/-- Laws of a monotonically rounded arithmetic without overflow and NaN: comparison is a total
preorder, and every operation used by the focusing delays is monotone, as it is for a correctly
rounded monotone function.  They hold for the reals. -/
structure RoundLaws (F : Type) [Arith F] : Prop where
  refl : ∀ a : F, le a a = true
  trans : ∀ a b c : F, le a b = true → le b c = true → le a c = true
  sq : ∀ a b : F, le (abs a) b = true → le (a *. a) (b *. b) = true
  add : ∀ a b c : F, le a b = true → le (a +. c) (b +. c) = true
  sqrt : ∀ a b : F, le a b = true → le (sqrt a) (sqrt b) = true
  sub : ∀ a b : F, le b a = true → le (lit 0) (a -. b) = true
  mul : ∀ a b : F, le (lit 0) a = true → le (lit 0) b = true → le (lit 0) (a *. b) = true
  div : ∀ a b : F, le (lit 0) a = true → lt (lit 0) b = true → le (lit 0) (a /. b) = true
  thousand : le (lit 0 : F) (lit 1000) = true
  lt_le : ∀ a b : F, lt a b = true → le a b = true
  total : ∀ a b : F, lt a b = false → le b a = true

theorem realRoundLaws : RoundLaws ℝ where
  refl a := by simp
  trans a b c := by simpa using fun h1 h2 => le_trans h1 h2
  sq a b := by
    simp only [r_le, r_abs, r_mul]
    intro h
    have := pow_le_pow_left₀ (abs_nonneg a) h 2
    rw [sq_abs] at this
    nlinarith
  add a b c := by simp
  sqrt a b := by simpa using fun h => Real.sqrt_le_sqrt h
  sub a b := by simp
  mul a b := by simpa using fun h1 h2 => mul_nonneg h1 h2
  div a b := by simpa using fun h1 h2 => div_nonneg h1 (le_of_lt h2)
  thousand := by simp
  lt_le a b := by simpa using fun h => le_of_lt h
  total a b := by simp [Arith.lt]

section Rounded
variable {F : Type} [Arith F]

theorem maxLoop_rounded (L : RoundLaws F) (G : Buf F) (off k : ℕ) : ∀ (i : ℕ) (cur x : F),
    maxLoop G off k i cur = .ok x →
      le cur x = true ∧ ∀ j, i ≤ j → j < i + k → le (Arith.abs (G.data (off + j))) x = true := by
  induction k with
  | zero =>
    intro i cur x h
    simp only [maxLoop, Outcome.ok.injEq] at h
    subst h
    exact ⟨L.refl _, fun j h1 h2 => by omega⟩
  | succ k ih =>
    intro i cur x h
    simp only [maxLoop, Buf.read] at h
    split at h
    · simp only [Outcome.bind, Int.toNat_natCast] at h
      obtain ⟨h1, h2⟩ := ih _ _ _ h
      have ha : le cur (if lt cur (Arith.abs (G.data (off + i))) = true then
          Arith.abs (G.data (off + i)) else cur) = true := by
        split
        · next hl => exact L.lt_le _ _ hl
        · exact L.refl _
      have hb : le (Arith.abs (G.data (off + i))) (if lt cur (Arith.abs (G.data (off + i))) = true
          then Arith.abs (G.data (off + i)) else cur) = true := by
        split
        · exact L.refl _
        · next hl => exact L.total _ _ (by simpa using hl)
      refine ⟨L.trans _ _ _ ha h1, ?_⟩
      intro j hj1 hj2
      by_cases hj : j = i
      · subst hj; exact L.trans _ _ _ hb h1
      · exact h2 j (by omega) (by omega)
    · simp at h

/-- C17 in every monotonically rounded arithmetic: with the aperture computed from the grid by
the same arithmetic, the `x` and `y` focusing delays of every element are non-negative.  (For
`xy` the squared radius is rounded and may lose this property.) -/
theorem C17_nonneg_rounded (L : RoundLaws F) (G : Buf F) (num : ℕ)
    (d : Dims F) (hd : maxDimArr G num = .ok d) (focal cp : F) (hcp : lt (lit 0) cp = true)
    (met : FocusMet) (hm : met = .x ∨ met = .y) (n : ℕ) (hn : n < num) :
    le (lit 0) (focusing met focal (G.data n) (G.data (num + n)) d cp) = true := by
  have hbound : le (Arith.abs (G.data n)) d.xmax = true ∧
      le (Arith.abs (G.data (num + n))) d.ymax = true := by
    unfold maxDimArr at hd
    cases r0 : G.read 0 with
    | ub e => rw [r0] at hd; simp at hd
    | fuel => rw [r0] at hd; simp at hd
    | ok x0 =>
      rw [r0] at hd; simp only [Outcome.bind] at hd
      have e0 : x0 = G.data 0 := by
        simp only [Buf.read] at r0
        split at r0
        · simpa using r0.symm
        · simp at r0
      subst e0
      cases hx : maxLoop G 0 (num - 1) 1 (Arith.abs (G.data 0)) with
      | ub e => rw [hx] at hd; simp at hd
      | fuel => rw [hx] at hd; simp at hd
      | ok xm =>
        rw [hx] at hd; simp only at hd
        cases r1 : G.read (num : ℤ) with
        | ub e => rw [r1] at hd; simp at hd
        | fuel => rw [r1] at hd; simp at hd
        | ok y0 =>
          rw [r1] at hd; simp only at hd
          have e1 : y0 = G.data num := by
            simp only [Buf.read] at r1
            split at r1
            · simpa using r1.symm
            · simp at r1
          subst e1
          cases hy : maxLoop G num (num - 1) 1 (Arith.abs (G.data num)) with
          | ub e => rw [hy] at hd; simp at hd
          | fuel => rw [hy] at hd; simp at hd
          | ok ym =>
            rw [hy] at hd
            simp only [Outcome.ok.injEq] at hd
            subst hd
            obtain ⟨a1, a2⟩ := maxLoop_rounded L G 0 _ _ _ _ hx
            obtain ⟨b1, b2⟩ := maxLoop_rounded L G num _ _ _ _ hy
            simp only [Nat.zero_add] at a2
            constructor
            · rcases Nat.eq_zero_or_pos n with h | h
              · subst h; exact a1
              · exact a2 n h (by omega)
            · rcases Nat.eq_zero_or_pos n with h | h
              · subst h; exact b1
              · exact b2 n h (by omega)
  rcases hm with rfl | rfl
  · exact L.div _ _ (L.mul _ _ (L.sub _ _ (L.sqrt _ _ (L.add _ _ _ (L.sq _ _ hbound.1))))
      L.thousand) hcp
  · exact L.div _ _ (L.mul _ _ (L.sub _ _ (L.sqrt _ _ (L.add _ _ _ (L.sq _ _ hbound.2))))
      L.thousand) hcp

end Rounded

/-! ### C18: steering -/

theorem deg2rad_real : (deg2rad : ℝ) = Real.pi / 180 := by
  simp [deg2rad]

theorem sin_deg_nonneg {θ : ℝ} (h0 : 0 ≤ θ) (h1 : θ ≤ 180) :
    0 ≤ Real.sin (θ * (Real.pi / 180)) := by
  have := Real.pi_pos
  apply Real.sin_nonneg_of_nonneg_of_le_pi
  · positivity
  · nlinarith

theorem sin_deg_nonpos {θ : ℝ} (h0 : -180 ≤ θ) (h1 : θ ≤ 0) :
    Real.sin (θ * (Real.pi / 180)) ≤ 0 := by
  have := sin_deg_nonneg (θ := -θ) (by linarith) (by linarith)
  rw [neg_mul, Real.sin_neg] at this
  linarith

theorem beamsteering_x (theta phi gx gy cp : ℝ) (d : Dims ℝ) :
    beamsteering .x theta phi gx gy d cp =
      (d.xmax + gx) * Real.sin (theta * (Real.pi / 180)) * 1000 / cp := by
  simp only [beamsteering, deg2rad_real, r_mul, r_add, r_div, r_sin, r_lit]
  push_cast; ring

theorem beamsteering_y (theta phi gx gy cp : ℝ) (d : Dims ℝ) :
    beamsteering .y theta phi gx gy d cp =
      (d.ymax + gy) * Real.sin (phi * (Real.pi / 180)) * 1000 / cp := by
  simp only [beamsteering, deg2rad_real, r_mul, r_add, r_div, r_sin, r_lit]
  push_cast; ring

theorem beamsteering_xy (theta phi gx gy cp : ℝ) (d : Dims ℝ) :
    beamsteering .xy theta phi gx gy d cp =
      beamsteering .x theta phi gx gy d cp + beamsteering .y theta phi gx gy d cp := rfl

/-- C18, sign: non-negative delays for angles in `[0°, 180°]`, non-positive ones for angles in
`[-180°, 0°]`, zero for method `off`. -/
theorem C18_sign (G : Buf ℝ) (num : ℕ) (h1 : 1 ≤ num) (hG : 3 * num ≤ G.size)
    (d : Dims ℝ) (hd : maxDimArr G num = .ok d) (theta phi cp : ℝ) (hcp : 0 < cp)
    (met : SteerMet) (n : ℕ) (hn : n < num) :
    (0 ≤ theta → theta ≤ 180 → 0 ≤ phi → phi ≤ 180 →
      0 ≤ beamsteering met theta phi (G.data n) (G.data (num + n)) d cp) ∧
    (-180 ≤ theta → theta ≤ 0 → -180 ≤ phi → phi ≤ 0 →
      beamsteering met theta phi (G.data n) (G.data (num + n)) d cp ≤ 0) ∧
    (met = .none → beamsteering met theta phi (G.data n) (G.data (num + n)) d cp = 0) := by
  have hc := covers_of_maxDim G num h1 hG d hd n hn
  have hx : 0 ≤ d.xmax + G.data n := by linarith [neg_abs_le (G.data n), hc.x]
  have hy : 0 ≤ d.ymax + G.data (num + n) := by linarith [neg_abs_le (G.data (num + n)), hc.y]
  have px : 0 ≤ theta → theta ≤ 180 →
      0 ≤ beamsteering .x theta phi (G.data n) (G.data (num + n)) d cp := by
    intro h2 h3
    rw [beamsteering_x]
    have := sin_deg_nonneg h2 h3
    positivity
  have py : 0 ≤ phi → phi ≤ 180 →
      0 ≤ beamsteering .y theta phi (G.data n) (G.data (num + n)) d cp := by
    intro h2 h3
    rw [beamsteering_y]
    have := sin_deg_nonneg h2 h3
    positivity
  have nx : -180 ≤ theta → theta ≤ 0 →
      beamsteering .x theta phi (G.data n) (G.data (num + n)) d cp ≤ 0 := by
    intro h2 h3
    rw [beamsteering_x]
    have h4 := mul_nonpos_of_nonneg_of_nonpos hx (sin_deg_nonpos h2 h3)
    exact div_nonpos_of_nonpos_of_nonneg (by linarith) hcp.le
  have ny : -180 ≤ phi → phi ≤ 0 →
      beamsteering .y theta phi (G.data n) (G.data (num + n)) d cp ≤ 0 := by
    intro h2 h3
    rw [beamsteering_y]
    have h4 := mul_nonpos_of_nonneg_of_nonpos hy (sin_deg_nonpos h2 h3)
    exact div_nonpos_of_nonpos_of_nonneg (by linarith) hcp.le
  cases met with
  | none => simp [beamsteering]
  | x => exact ⟨fun a b _ _ => px a b, fun a b _ _ => nx a b, by simp⟩
  | y => exact ⟨fun _ _ a b => py a b, fun _ _ a b => ny a b, by simp⟩
  | xy =>
    rw [beamsteering_xy]
    exact ⟨fun a b a' b' => add_nonneg (px a b) (py a' b'),
      fun a b a' b' => add_nonpos (nx a b) (ny a' b'), by simp⟩

/-- C18, linearity: delay differences are those of a plane wave. -/
theorem C18_plane_wave (theta phi gx gy gx' gy' cp : ℝ) (d : Dims ℝ) :
    beamsteering .x theta phi gx gy d cp - beamsteering .x theta phi gx' gy' d cp =
      (gx - gx') * Real.sin (theta * (Real.pi / 180)) * 1000 / cp ∧
    beamsteering .y theta phi gx gy d cp - beamsteering .y theta phi gx' gy' d cp =
      (gy - gy') * Real.sin (phi * (Real.pi / 180)) * 1000 / cp ∧
    beamsteering .xy theta phi gx gy d cp - beamsteering .xy theta phi gx' gy' d cp =
      ((gx - gx') * Real.sin (theta * (Real.pi / 180)) +
        (gy - gy') * Real.sin (phi * (Real.pi / 180))) * 1000 / cp := by
  rw [beamsteering_xy, beamsteering_xy]
  simp only [beamsteering_x, beamsteering_y]
  refine ⟨?_, ?_, ?_⟩ <;> ring

/-! ### C19: apodization -/

theorem cos_shift (r R : ℝ) (hR : R ≠ 0) :
    Real.cos ((r + R) * Real.pi / R) = -Real.cos (r * Real.pi / R) := by
  have : (r + R) * Real.pi / R = r * Real.pi / R + Real.pi := by field_simp
  rw [this, Real.cos_add_pi]

/-- The documented apodization windows as functions of the normalised radius `ρ = r/r_max`. -/
noncomputable def windowSpec (met : ApodMet) (par ρ : ℝ) : ℝ :=
  match met with
  | .ud => 0   -- not a window
  | .triangle => 1 - ρ
  | .gauss => Real.exp (-(par * ρ ^ 2))
  | .raisedCosine => par + Real.cos (Real.pi * ρ)
  | .hann => (1 + Real.cos (Real.pi * ρ)) / 2
  | .hamming => 25 / 46 + 21 / 46 * Real.cos (Real.pi * ρ)
  | .simplySupported => 1 - ρ ^ 2
  | .clamped => (1 - ρ ^ 2) ^ 2

/-- C19: the weights are the documented windows of `r / r_max`; user defined weights are used
verbatim. -/
theorem C19_windows (met : ApodMet) (u r R par : ℝ) (hr : 0 ≤ r) (hR : 0 < R) :
    (met ≠ .ud → apodFormula met u r R par = windowSpec met par (r / R)) ∧
    (met = .ud → apodFormula met u r R par = u) := by
  have hR' := hR.ne'
  refine ⟨fun h => ?_, fun h => by subst h; rfl⟩
  have hc : Real.cos (r * Real.pi / R) = Real.cos (Real.pi * (r / R)) := by
    congr 1; ring
  cases met with
  | ud => exact absurd rfl h
  | triangle =>
    simp [apodFormula, windowSpec, abs_of_nonneg hr]
  | gauss =>
    simp only [apodFormula, windowSpec, r_exp, r_div, r_neg, r_mul]
    congr 1; field_simp
  | raisedCosine =>
    simp only [apodFormula, windowSpec, r_cos, r_div, r_add, r_mul, r_pi]
    rw [hc]
  | hann =>
    simp only [apodFormula, windowSpec, r_cos, r_div, r_add, r_sub, r_mul, r_pi, r_lit]
    rw [cos_shift r R hR', hc]; push_cast; ring
  | hamming =>
    simp only [apodFormula, windowSpec, r_cos, r_div, r_add, r_sub, r_mul, r_pi, r_lit]
    rw [cos_shift r R hR', hc]; push_cast; ring
  | simplySupported =>
    simp only [apodFormula, windowSpec, r_div, r_sub, r_mul, r_lit]
    push_cast; field_simp
  | clamped =>
    simp only [apodFormula, windowSpec, r_div, r_sub, r_mul, r_lit]
    push_cast; field_simp

theorem cos_pi_mul_bounds (ρ : ℝ) : -1 ≤ Real.cos (Real.pi * ρ) ∧ Real.cos (Real.pi * ρ) ≤ 1 :=
  ⟨Real.neg_one_le_cos _, Real.cos_le_one _⟩

/-- C19: range of the weights of an element inside the aperture, and their value at the
centre. -/
theorem C19_range (u r R par : ℝ) (hr : 0 ≤ r) (hrR : r ≤ R) (hR : 0 < R) :
    (∀ met, met = .triangle ∨ met = .simplySupported ∨ met = .clamped ∨ met = .hann →
      0 ≤ apodFormula met u r R par ∧ apodFormula met u r R par ≤ 1 ∧
      apodFormula met u 0 R par = 1) ∧
    (0 ≤ par → 0 < apodFormula .gauss u r R par ∧ apodFormula .gauss u r R par ≤ 1 ∧
      apodFormula .gauss u 0 R par = 1) ∧
    (2 / 23 ≤ apodFormula .hamming u r R par ∧ apodFormula .hamming u r R par ≤ 1 ∧
      apodFormula .hamming u 0 R par = 1) ∧
    (par - 1 ≤ apodFormula .raisedCosine u r R par ∧
      apodFormula .raisedCosine u r R par ≤ par + 1 ∧
      apodFormula .raisedCosine u 0 R par = par + 1) := by
  have hρ0 : 0 ≤ r / R := by positivity
  have hρ1 : r / R ≤ 1 := by rw [div_le_one hR]; exact hrR
  have hs : (r / R) ^ 2 ≤ 1 := by nlinarith
  have hs0 : 0 ≤ (r / R) ^ 2 := by positivity
  have hcos := cos_pi_mul_bounds (r / R)
  have w : ∀ met, met ≠ .ud → apodFormula met u r R par = windowSpec met par (r / R) :=
    fun met => (C19_windows met u r R par hr hR).1
  have w0 : ∀ met, met ≠ .ud → apodFormula met u 0 R par = windowSpec met par 0 := by
    intro met h
    have := (C19_windows met u 0 R par (le_refl _) hR).1 h
    rwa [zero_div] at this
  refine ⟨?_, ?_, ?_, ?_⟩
  · rintro met (rfl | rfl | rfl | rfl)
    all_goals rw [w _ (by decide), w0 _ (by decide)]; simp only [windowSpec]
    · exact ⟨by linarith, by linarith, by simp⟩
    · exact ⟨by linarith, by linarith, by simp⟩
    · exact ⟨by positivity, by nlinarith, by simp⟩
    · refine ⟨by linarith, by linarith, ?_⟩
      simp
  · intro hp
    rw [w _ (by decide), w0 _ (by decide)]; simp only [windowSpec]
    refine ⟨Real.exp_pos _, ?_, by simp⟩
    rw [Real.exp_le_one_iff]
    have : 0 ≤ par * (r / R) ^ 2 := by positivity
    linarith
  · rw [w _ (by decide), w0 _ (by decide)]; simp only [windowSpec]
    refine ⟨by linarith, by linarith, ?_⟩
    simp; norm_num
  · rw [w _ (by decide), w0 _ (by decide)]; simp only [windowSpec]
    exact ⟨by linarith, by linarith, by simp⟩

/-- C19: every window (gauss with non-negative parameter) decreases from the centre to the
edge. -/
theorem C19_decreasing (met : ApodMet) (hm : met ≠ .ud) (u r r' R par : ℝ) (hr : 0 ≤ r)
    (hrr : r ≤ r') (hrR : r' ≤ R) (hR : 0 < R) (hp : met = .gauss → 0 ≤ par) :
    apodFormula met u r' R par ≤ apodFormula met u r R par := by
  rw [(C19_windows met u r R par hr hR).1 hm,
    (C19_windows met u r' R par (le_trans hr hrr) hR).1 hm]
  have h0 : 0 ≤ r / R := by positivity
  have h1 : r / R ≤ r' / R := div_le_div_of_nonneg_right hrr hR.le
  have h2 : r' / R ≤ 1 := by rw [div_le_one hR]; exact hrR
  have hsq : (r / R) ^ 2 ≤ (r' / R) ^ 2 := pow_le_pow_left₀ h0 h1 2
  have hsq1 : (r' / R) ^ 2 ≤ 1 := by nlinarith
  have hcos : Real.cos (Real.pi * (r' / R)) ≤ Real.cos (Real.pi * (r / R)) := by
    have hpi := Real.pi_pos
    apply Real.cos_le_cos_of_nonneg_of_le_pi
    · positivity
    · nlinarith
    · nlinarith
  cases met with
  | ud => exact absurd rfl hm
  | triangle => simp only [windowSpec]; linarith
  | gauss =>
    simp only [windowSpec]
    apply Real.exp_le_exp.mpr
    have := mul_le_mul_of_nonneg_left hsq (hp rfl)
    linarith
  | raisedCosine => simp only [windowSpec]; linarith
  | hann => simp only [windowSpec]; linarith
  | hamming => simp only [windowSpec]; linarith
  | simplySupported => simp only [windowSpec]; linarith
  | clamped =>
    simp only [windowSpec]
    apply pow_le_pow_left₀ <;> linarith

/-- C19 in an array: an element of the grid is inside the aperture, so the bounds above hold for
the weight the array function uses. -/
theorem C19_array_weight (A : ArrPar ℝ) (hA : A.Sized) (d : Dims ℝ)
    (hd : maxDimArr A.G A.num = .ok d) (hr : 0 < d.rmax) (cp : ℝ) (n : ℕ) (hn : n < A.num)
    (hap : A.doApod = true) :
    ∃ e, A.elem d cp n = .ok e ∧
      ((A.apodMet = .triangle ∨ A.apodMet = .simplySupported ∨ A.apodMet = .clamped ∨
        A.apodMet = .hann) → 0 ≤ e.weight ∧ e.weight ≤ 1) ∧
      (A.apodMet = .gauss → 0 ≤ A.apodPar → 0 < e.weight ∧ e.weight ≤ 1) ∧
      (A.apodMet = .hamming → 2 / 23 ≤ e.weight ∧ e.weight ≤ 1) ∧
      (A.apodMet = .raisedCosine → A.apodPar - 1 ≤ e.weight ∧ e.weight ≤ A.apodPar + 1) ∧
      (A.apodMet = .ud → e.weight = A.apod.data n) := by
  refine ⟨_, elem_ok A hA d cp n hn, ?_⟩
  simp only [hap, if_true]
  have hc := covers_of_maxDim A.G A.num hA.num (by rw [hA.grid]) d hd n hn
  have hle : Real.sqrt (A.G.data n * A.G.data n + A.G.data (A.num + n) * A.G.data (A.num + n)) ≤
      d.rmax := by
    rw [Real.sqrt_le_left hr.le]
    have := hc.r
    nlinarith
  have h3 := C19_range (A.apod.data n) _ d.rmax A.apodPar (Real.sqrt_nonneg _) hle hr
  refine ⟨fun hm => ?_, fun hm hp => ?_, fun hm => ?_, fun hm => ?_, fun hm => ?_⟩
  · have := h3.1 A.apodMet hm
    exact ⟨this.1, this.2.1⟩
  · rw [hm]; exact ⟨(h3.2.1 hp).1, (h3.2.1 hp).2.1⟩
  · rw [hm]; exact ⟨h3.2.2.1.1, h3.2.2.1.2.1⟩
  · rw [hm]; exact ⟨h3.2.2.2.1, h3.2.2.2.2.1⟩
  · rw [hm]; rfl

/-! ### The delays and weights used in C15, written out -/

/-- Specification of the focusing delay of an array element in microseconds: the time by which the
path from the edge of the aperture to the focus is longer than the path of the element. -/
noncomputable def focusSpec (met : FocusMet) (f gx gy xmax ymax rmax cp : ℝ) : ℝ :=
  match met with
  | .x => (Real.sqrt (xmax ^ 2 + f ^ 2) - Real.sqrt (gx ^ 2 + f ^ 2)) * 1000 / cp
  | .y => (Real.sqrt (ymax ^ 2 + f ^ 2) - Real.sqrt (gy ^ 2 + f ^ 2)) * 1000 / cp
  | .xy => (Real.sqrt (rmax ^ 2 + f ^ 2) - Real.sqrt (gx ^ 2 + gy ^ 2 + f ^ 2)) * 1000 / cp
  | .x_y => (Real.sqrt (rmax ^ 2 + f ^ 2) - Real.sqrt (gx ^ 2 + f ^ 2)
      - Real.sqrt (gy ^ 2 + f ^ 2)) * 1000 / cp
  | _ => 0

/-- Specification of the steering delay of an array element in microseconds (angles in degrees). -/
noncomputable def steerSpec (met : SteerMet) (theta phi gx gy xmax ymax cp : ℝ) : ℝ :=
  match met with
  | .none => 0
  | .x => (xmax + gx) * Real.sin (theta * (Real.pi / 180)) * 1000 / cp
  | .y => (ymax + gy) * Real.sin (phi * (Real.pi / 180)) * 1000 / cp
  | .xy => (xmax + gx) * Real.sin (theta * (Real.pi / 180)) * 1000 / cp
      + (ymax + gy) * Real.sin (phi * (Real.pi / 180)) * 1000 / cp

/-- C15, what is superposed: the delays and weights of element `n` are the documented ones, with the
aperture `d` (C20).  User defined delays and weights are used verbatim.  Windows need an aperture that
is not a single point. -/
theorem C15_element_values (A : ArrPar ℝ) (d : Dims ℝ) (cp : ℝ) (n : ℕ) :
    (A.element d cp n).gx = A.G.data n ∧
    (A.element d cp n).gy = A.G.data (A.num + n) ∧
    (A.element d cp n).gz = A.G.data (2 * A.num + n) ∧
    (A.focMet = .ud → (A.element d cp n).foc = A.focal.data n) ∧
    (A.focMet ≠ .ud → (A.element d cp n).foc =
      focusSpec A.focMet (A.focal.data 0) (A.G.data n) (A.G.data (A.num + n)) d.xmax d.ymax d.rmax cp) ∧
    (A.element d cp n).steer =
      steerSpec A.steerMet A.theta A.phi (A.G.data n) (A.G.data (A.num + n)) d.xmax d.ymax cp ∧
    (A.doApod = false → (A.element d cp n).weight = 1) ∧
    (A.doApod = true → A.apodMet = .ud → (A.element d cp n).weight = A.apod.data n) ∧
    (A.doApod = true → A.apodMet ≠ .ud → 0 < d.rmax → (A.element d cp n).weight =
      windowSpec A.apodMet A.apodPar
        (Real.sqrt (A.G.data n ^ 2 + A.G.data (A.num + n) ^ 2) / d.rmax)) := by
  refine ⟨rfl, rfl, rfl, ?_, ?_, ?_, ?_, ?_, ?_⟩
  · intro h; simp only [ArrPar.element, h, if_true]
  · intro h
    simp only [ArrPar.element, h, if_false]
    cases hm : A.focMet with
    | x => rw [focusing_x]; rfl
    | y => rw [focusing_y]; rfl
    | xy => rw [focusing_xy]; rfl
    | x_y => rw [focusing_x_y]; simp only [focusSpec]; ring
    | ud => exact absurd hm h
    | _ => simp [focusing, focusSpec]
  · simp only [ArrPar.element]
    cases hm : A.steerMet with
    | none => simp [beamsteering, steerSpec]
    | x => rw [beamsteering_x]; rfl
    | y => rw [beamsteering_y]; rfl
    | xy => rw [beamsteering_xy, beamsteering_x, beamsteering_y]; rfl
  · intro h; simp [ArrPar.element, h]
  · intro h h2; simp [ArrPar.element, h, h2, apodFormula]
  · intro h h2 h3
    simp only [ArrPar.element, h, if_true]
    rw [(C19_windows A.apodMet _ _ d.rmax A.apodPar (Real.sqrt_nonneg _) h3).1 h2]
    simp only [pow_two]

-- the two-element array of C15 with a Hann window: its aperture has radius 4, the elements are on its
-- edge and get weight 0
example (d : Dims ℝ) (hd : maxDimArr pairArr.G pairArr.num = .ok d) :
    (({ pairArr with doApod := true, apodMet := .hann } : ArrPar ℝ).element d 1000 1).weight = 0 := by
  obtain ⟨d', h0, h1, ⟨k, hk, hk'⟩, h3, ⟨j, hj, hj'⟩, h5, _⟩ :=
    C20_aperture pairArr.G pairArr.num (by decide) (by simp [pairArr])
  rw [hd] at h0
  injection h0 with h0
  subst h0
  have hx : d.xmax = 4 := by
    rw [← hk']
    have : k = 0 ∨ k = 1 := by simp [pairArr] at hk; omega
    rcases this with rfl | rfl <;> simp [pairArr]
  have hy : d.ymax = 0 := by
    rw [← hj']
    have : j = 0 ∨ j = 1 := by simp [pairArr] at hj; omega
    rcases this with rfl | rfl <;> simp [pairArr]
  have hr : d.rmax = 4 := by
    rw [h5, hx, hy]
    rw [show (4 : ℝ) ^ 2 + 0 ^ 2 = 4 ^ 2 by norm_num]
    exact Real.sqrt_sq (by norm_num)
  have := (C15_element_values { pairArr with doApod := true, apodMet := .hann } d 1000 1).2.2.2.2.2.2.2.2
    rfl (by simp) (by rw [hr]; norm_num)
  rw [this, hr]
  have : Real.sqrt (pairArr.G.data 1 ^ 2 + pairArr.G.data (pairArr.num + 1) ^ 2) = 4 := by
    rw [show pairArr.G.data 1 ^ 2 + pairArr.G.data (pairArr.num + 1) ^ 2 = 4 ^ 2 by
      norm_num [pairArr]]
    exact Real.sqrt_sq (by norm_num)
  simp only [windowSpec]
  rw [this]
  norm_num

end Dream
