import Verif.MFiles
import Verif.ClaimsArrReal
import Verif.AnnuThms
import Mathlib.Topology.Algebra.Order.LiminfLimsup
import Mathlib.Analysis.SpecialFunctions.Pow.Real
import Mathlib.Analysis.SpecialFunctions.Sqrt

/-
C77: `arr_focus_delays`.  C78: `h2o_soundspeed`.
-/

namespace Dream
open Arith Finset Filter Topology

/-! ### C77: arr_focus_delays -/

/-- Distance [mm] from element position `x` to the point at depth `foc` in direction `ang` [deg]. -/
noncomputable def focDist (foc ang x : ℝ) : ℝ :=
  Real.sqrt ((foc * Real.tan (ang * Real.pi / 180) - x) ^ 2 + foc ^ 2)

theorem focNorm_real (foc ang x : ℝ) : focNorm foc ang x = focDist foc ang x := by
  simp only [focNorm, focDist, r_mul, r_div, r_sub, r_add, r_sqrt, r_sin, r_cos, r_lit, r_pi,
    Real.tan_eq_sin_div_cos]
  push_cast
  congr 1; ring

theorem runMax_real (r : ℕ → ℝ) (c : ℝ) (k : ℕ) :
    c ≤ runMax r c k ∧ (∀ n, n < k → r n ≤ runMax r c k) ∧
      (runMax r c k = c ∨ ∃ n, n < k ∧ runMax r c k = r n) := by
  induction k with
  | zero => exact ⟨le_refl _, fun n h => by omega, .inl rfl⟩
  | succ k ih =>
    obtain ⟨h1, h2, h3⟩ := ih
    simp only [runMax, r_lt]
    by_cases h : runMax r c k < r k
    · simp only [h, decide_true, if_true]
      refine ⟨by linarith, fun n hn => ?_, .inr ⟨k, by omega, rfl⟩⟩
      by_cases hk : n = k
      · subst hk; exact le_refl _
      · linarith [h2 n (by omega)]
    · simp only [h, decide_false, Bool.false_eq_true, if_false]
      refine ⟨h1, fun n hn => ?_, h3.imp id fun ⟨n, a, b⟩ => ⟨n, by omega, b⟩⟩
      by_cases hk : n = k
      · subst hk; linarith
      · exact h2 n (by omega)

/-- The largest of the distances. -/
theorem runMax_dist (L : ℕ) (hL : 1 ≤ L) (r : ℕ → ℝ) (hr : ∀ n, 0 ≤ r n) :
    (∀ n, n < L → r n ≤ runMax r 0 L) ∧ ∃ n, n < L ∧ runMax r 0 L = r n := by
  obtain ⟨h1, h2, h3⟩ := runMax_real r 0 L
  refine ⟨h2, ?_⟩
  rcases h3 with h | h
  · exact ⟨0, by omega, le_antisymm (by rw [h]; exact hr 0) (h2 0 (by omega))⟩
  · exact h

theorem arrFocusDelays_pos (L : ℕ) (gx : ℕ → ℝ) (cp foc ang : ℝ) (hf : 0 ≤ foc) (n : ℕ) :
    arrFocusDelays L gx cp foc ang n =
      (runMax (fun n => focDist foc ang (gx n)) 0 L - focDist foc ang (gx n)) * 1000 / cp := by
  simp only [arrFocusDelays, r_lt, r_lit, focNorm_real, r_sub, r_mul, r_div]
  push_cast
  rw [if_neg (by simpa using hf)]

/-- C77: for a focal depth that is not negative the delays compensate the travel times: every element's
delay plus its travel time to the point at depth `foc` in direction `ang` is the same, no delay is
negative, and some element is not delayed. -/
theorem C77_focus (L : ℕ) (hL : 1 ≤ L) (gx : ℕ → ℝ) (cp foc ang : ℝ) (hcp : 0 < cp) (hf : 0 ≤ foc) :
    ∃ R, (∀ n, n < L → arrFocusDelays L gx cp foc ang n + focDist foc ang (gx n) * 1000 / cp = R) ∧
      (∀ n, n < L → 0 ≤ arrFocusDelays L gx cp foc ang n) ∧
      ∃ n, n < L ∧ arrFocusDelays L gx cp foc ang n = 0 := by
  obtain ⟨h1, m, hm, h2⟩ := runMax_dist L hL (fun n => focDist foc ang (gx n))
    (fun n => Real.sqrt_nonneg _)
  refine ⟨runMax (fun n => focDist foc ang (gx n)) 0 L * 1000 / cp, fun n hn => ?_, fun n hn => ?_,
    m, hm, ?_⟩
  · rw [arrFocusDelays_pos L gx cp foc ang hf]; ring
  · rw [arrFocusDelays_pos L gx cp foc ang hf]
    exact scaled_nonneg hcp (by linarith [h1 n hn])
  · rw [arrFocusDelays_pos L gx cp foc ang hf, h2]; simp

/-- C77: for a negative focal depth the delays are those of a wave from a point behind the array: every
element's delay is its travel time from that point, less a constant; no delay is negative, and some
element is not delayed. -/
theorem C77_virtual_source (L : ℕ) (hL : 1 ≤ L) (gx : ℕ → ℝ) (cp foc ang : ℝ) (hf : foc < 0) :
    ∃ R, (∀ n, n < L → arrFocusDelays L gx cp foc ang n = focDist foc ang (gx n) * 1000 / cp - R) ∧
      (∀ n, n < L → 0 ≤ arrFocusDelays L gx cp foc ang n) ∧
      ∃ n, n < L ∧ arrFocusDelays L gx cp foc ang n = 0 := by
  obtain ⟨d, hd⟩ : ∃ d : ℕ → ℝ, d = fun n =>
    (runMax (fun n => focDist foc ang (gx n)) 0 L - focDist foc ang (gx n)) * 1000 / cp := ⟨_, rfl⟩
  have e : ∀ n, arrFocusDelays L gx cp foc ang n = |d n - runMax d (d 0) L| := by
    intro n
    simp only [arrFocusDelays, r_lt, r_lit, focNorm_real, r_sub, r_mul, r_div, r_abs, hd]
    push_cast
    rw [if_pos (by simpa using hf)]
  obtain ⟨_, h2, h3⟩ := runMax_real d (d 0) L
  have h4 : ∃ n, n < L ∧ runMax d (d 0) L = d n := by
    rcases h3 with h | h
    · exact ⟨0, by omega, h⟩
    · exact h
  have e2 : ∀ n, n < L → arrFocusDelays L gx cp foc ang n = runMax d (d 0) L - d n := by
    intro n hn
    rw [e n, abs_of_nonpos (by linarith [h2 n hn])]
    ring
  obtain ⟨m, hm, h5⟩ := h4
  refine ⟨focDist foc ang (gx m) * 1000 / cp, fun n hn => ?_, fun n hn => ?_, m, hm, ?_⟩
  · rw [e2 n hn, h5, hd]; ring
  · rw [e2 n hn]; linarith [h2 n hn]
  · rw [e2 m hm, h5]; ring

/-- C77: without steering the delays are those of the focusing method `x` of the array functions. -/
theorem C77_focusing_x (G : Buf ℝ) (num : ℕ) (h1 : 1 ≤ num) (hG : 3 * num ≤ G.size) (d : Dims ℝ)
    (hd : maxDimArr G num = .ok d) (cp foc gy : ℝ) (hf : 0 ≤ foc) (n : ℕ) :
    arrFocusDelays num G.data cp foc 0 n = focusing .x foc (G.data n) gy d cp := by
  obtain ⟨d', k1, k2, ⟨m, hm, k3⟩, _⟩ := C20_aperture G num h1 hG
  obtain rfl : d' = d := by rw [hd] at k1; simpa using k1.symm
  have e : ∀ x : ℝ, focDist foc 0 x = Real.sqrt (x ^ 2 + foc ^ 2) := by
    intro x
    simp [focDist]
  rw [arrFocusDelays_pos _ _ _ _ _ hf, focusing_x]
  congr 2
  rw [e]
  congr 1
  obtain ⟨g1, l, hl, g2⟩ := runMax_dist num h1 (fun n => focDist foc 0 (G.data n))
    (fun n => Real.sqrt_nonneg _)
  apply le_antisymm
  · rw [g2, e]
    apply Real.sqrt_le_sqrt
    have := pow_le_pow_left₀ (abs_nonneg _) (k2 l hl) 2
    rw [sq_abs] at this
    linarith
  · have := g1 m hm
    rw [e] at this
    rw [← k3, sq_abs]
    exact this

/-- The array call with user defined delays from `arr_focus_delays`. -/
noncomputable def ArrPar.withDelays (A : ArrPar ℝ) (cp foc ang : ℝ) : ArrPar ℝ :=
  { A with focMet := .ud, focal := ⟨A.num, arrFocusDelays A.num A.G.data cp foc ang⟩ }

/-- C77: passing the delays of `arr_focus_delays(gx,cp,foc,0)` as user defined delays (`'ud'`) gives
what the focusing method `'x'` with focal depth `foc` gives: the same response, error code and behaviour,
for every kind of element, observation point, steering and apodization. -/
theorem C77_ud_is_x (D : ArrCall ℝ) (h1 : 1 ≤ D.A.num) (hG : 3 * D.A.num ≤ D.A.G.size)
    (hm : D.A.focMet = .x) (hs : 1 ≤ D.A.focal.size) (hf : 0 ≤ D.A.focal.data 0) (n fuel : ℕ)
    (m : Buf ℝ) :
    ({ D with A := D.A.withDelays D.p.cp (D.A.focal.data 0) 0 } : ArrCall ℝ).serialAt n fuel m =
      D.serialAt n fuel m := by
  obtain ⟨d, hd⟩ := maxDimArr_ok D.A.G D.A.num h1 hG
  have hel : ∀ k, k < D.A.num → (D.A.withDelays D.p.cp (D.A.focal.data 0) 0).elem d D.p.cp k =
      D.A.elem d D.p.cp k := by
    intro k hk
    have r0 : D.A.focal.read 0 = .ok (D.A.focal.data 0) := by
      simp only [Buf.read]; rw [if_pos (by omega)]; rfl
    have hux : FocusMet.x ≠ .ud := by decide
    unfold ArrPar.elem ArrPar.withDelays
    simp only [hm, if_true, if_neg hux, r0]
    rw [Buf.read_nat D.A.G k (by omega), Buf.read_nat D.A.G (D.A.num + k) (by omega),
      Buf.read_nat (⟨D.A.num, arrFocusDelays D.A.num D.A.G.data D.p.cp (D.A.focal.data 0) 0⟩ : Buf ℝ)
        k hk]
    simp only [Outcome.bind, Outcome.map]
    rw [C77_focusing_x D.A.G D.A.num h1 hG d hd D.p.cp _ _ hf k]
  have hloop : ∀ (p : Par ℝ), p.cp = D.p.cp → ∀ xo yo zo base k j err (m : Buf ℝ), j + k ≤ D.A.num →
      arrLoop (D.A.withDelays D.p.cp (D.A.focal.data 0) 0) D.K d D.nt D.ty D.level D.att p xo yo zo fuel
        base k j err m = arrLoop D.A D.K d D.nt D.ty D.level D.att p xo yo zo fuel base k j err m := by
    intro p hp xo yo zo base k
    induction k with
    | zero => intros; rfl
    | succ k ih =>
      intro j err m hj
      simp only [arrLoop, hp]
      rw [hel j (by omega)]
      congr 1; funext e; congr 1; funext r
      split
      · rfl
      · exact ih _ _ _ (by omega)
  unfold ArrCall.serialAt
  have hin : ({ D with A := D.A.withDelays D.p.cp (D.A.focal.data 0) 0 } : ArrCall ℝ).inputs n =
      D.inputs n := rfl
  rw [hin]
  congr 1; funext r
  obtain ⟨xo, yo, zo, dl⟩ := r
  simp only [arrSerial]
  congr 1; funext m
  show (maxDimArr D.A.G D.A.num).bind _ = _
  rw [hd]
  exact hloop { D.p with delay := dl } rfl _ _ _ _ D.A.num 0 _ _ (by omega)

/-- C77: the focusing methods of the library do not look at the sign of the focal depth: a negative
depth focuses in front of the array, only `arr_focus_delays` makes a diverging wave. -/
theorem C77_library_ignores_sign (met : FocusMet) (hm : met ≠ .ud) (foc gx gy : ℝ) (d : Dims ℝ)
    (cp : ℝ) : focusing met (-foc) gx gy d cp = focusing met foc gx gy d cp := by
  cases met <;> simp_all [focusing]

/-! #### Far focus -/

theorem dist_diff_tendsto (t x y : ℝ) :
    Tendsto (fun f : ℝ => Real.sqrt ((f * t - x) ^ 2 + f ^ 2) - Real.sqrt ((f * t - y) ^ 2 + f ^ 2))
      atTop (𝓝 ((y - x) * t / Real.sqrt (t ^ 2 + 1))) := by
  have hinv : Tendsto (fun f : ℝ => f⁻¹) atTop (𝓝 0) := tendsto_inv_atTop_zero
  have hs : ∀ z : ℝ, Tendsto (fun f : ℝ => Real.sqrt ((t - z * f⁻¹) ^ 2 + 1)) atTop
      (𝓝 (Real.sqrt (t ^ 2 + 1))) := by
    intro z
    have h1 : Tendsto (fun f : ℝ => (t - z * f⁻¹) ^ 2 + 1) atTop (𝓝 ((t - z * 0) ^ 2 + 1)) :=
      ((tendsto_const_nhds.sub (tendsto_const_nhds.mul hinv)).pow 2).add tendsto_const_nhds
    simpa using h1.sqrt
  have hpos : 0 < Real.sqrt (t ^ 2 + 1) := Real.sqrt_pos.2 (by positivity)
  have hnum : Tendsto (fun f : ℝ => (y - x) * (2 * t - (x + y) * f⁻¹)) atTop
      (𝓝 ((y - x) * (2 * t - (x + y) * 0))) :=
    tendsto_const_nhds.mul (tendsto_const_nhds.sub (tendsto_const_nhds.mul hinv))
  have hq := hnum.div ((hs x).add (hs y)) (by positivity)
  have he : (y - x) * (2 * t - (x + y) * 0) / (Real.sqrt (t ^ 2 + 1) + Real.sqrt (t ^ 2 + 1)) =
      (y - x) * t / Real.sqrt (t ^ 2 + 1) := by
    field_simp; ring
  rw [he] at hq
  refine hq.congr' ?_
  filter_upwards [eventually_gt_atTop (0 : ℝ)] with f hf
  have hsc : ∀ z : ℝ, Real.sqrt ((f * t - z) ^ 2 + f ^ 2) =
      f * Real.sqrt ((t - z * f⁻¹) ^ 2 + 1) := by
    intro z
    have : (f * t - z) ^ 2 + f ^ 2 = f ^ 2 * ((t - z * f⁻¹) ^ 2 + 1) := by
      field_simp
    rw [this, Real.sqrt_mul (by positivity), Real.sqrt_sq hf.le]
  simp only [Pi.div_apply]
  rw [hsc x, hsc y]
  have hx : 0 < Real.sqrt ((t - x * f⁻¹) ^ 2 + 1) := Real.sqrt_pos.2 (by positivity)
  have hy : 0 < Real.sqrt ((t - y * f⁻¹) ^ 2 + 1) := Real.sqrt_pos.2 (by positivity)
  rw [div_eq_iff (by positivity)]
  have ex := Real.sq_sqrt (show 0 ≤ (t - x * f⁻¹) ^ 2 + 1 by positivity)
  have ey := Real.sq_sqrt (show 0 ≤ (t - y * f⁻¹) ^ 2 + 1 by positivity)
  have : (f * Real.sqrt ((t - x * f⁻¹) ^ 2 + 1) - f * Real.sqrt ((t - y * f⁻¹) ^ 2 + 1)) *
      (Real.sqrt ((t - x * f⁻¹) ^ 2 + 1) + Real.sqrt ((t - y * f⁻¹) ^ 2 + 1)) =
      f * (Real.sqrt ((t - x * f⁻¹) ^ 2 + 1) ^ 2 - Real.sqrt ((t - y * f⁻¹) ^ 2 + 1) ^ 2) := by ring
  rw [this, ex, ey]
  field_simp
  ring

theorem tan_div_sqrt {a : ℝ} (h : 0 < Real.cos a) :
    Real.tan a / Real.sqrt (Real.tan a ^ 2 + 1) = Real.sin a := by
  have h2 : Real.tan a ^ 2 + 1 = (1 / Real.cos a) ^ 2 := by
    rw [Real.tan_eq_sin_div_cos]
    field_simp
    rw [Real.sin_sq_add_cos_sq]
  rw [h2, Real.sqrt_sq (by positivity), Real.tan_eq_sin_div_cos]
  field_simp

/-- C77: as the focal depth grows, the delays tend to those of a plane wave in direction `ang`; `m` is an
element the wave leaves first (smallest `gx` for positive angles, largest for negative ones). -/
theorem C77_far_focus (L : ℕ) (gx : ℕ → ℝ) (cp ang : ℝ) (ha : |ang| < 90) (m : ℕ) (hm : m < L)
    (hmin : ∀ j, j < L → gx m * Real.sin (ang * Real.pi / 180) ≤ gx j * Real.sin (ang * Real.pi / 180))
    (n : ℕ) :
    Tendsto (fun foc => arrFocusDelays L gx cp foc ang n) atTop
      (𝓝 ((gx n - gx m) * Real.sin (ang * Real.pi / 180) * 1000 / cp)) := by
  have hcos : 0 < Real.cos (ang * Real.pi / 180) := by
    have h := abs_lt.1 ha
    have hp := Real.pi_pos
    exact Real.cos_pos_of_mem_Ioo ⟨by nlinarith [h.1], by nlinarith [h.2]⟩
  have hd : ∀ x y : ℝ, Tendsto (fun foc => focDist foc ang x - focDist foc ang y) atTop
      (𝓝 ((y - x) * Real.sin (ang * Real.pi / 180))) := by
    intro x y
    have := dist_diff_tendsto (Real.tan (ang * Real.pi / 180)) x y
    rwa [mul_div_assoc (y - x), tan_div_sqrt hcos] at this
  have hmax : Tendsto (fun foc => runMax (fun n => focDist foc ang (gx n)) 0 L - focDist foc ang (gx m))
      atTop (𝓝 0) := by
    have hsum : Tendsto (fun foc => ∑ j ∈ range L, max 0 (focDist foc ang (gx j) - focDist foc ang (gx m)))
        atTop (𝓝 0) := by
      have : ∀ j ∈ range L, Tendsto (fun foc => max 0 (focDist foc ang (gx j) - focDist foc ang (gx m)))
          atTop (𝓝 (0 : ℝ)) := by
        intro j hj
        have h1 := (tendsto_const_nhds (x := (0 : ℝ))).max (hd (gx j) (gx m))
        have h2 : max 0 ((gx m - gx j) * Real.sin (ang * Real.pi / 180)) = 0 := by
          apply max_eq_left
          have := hmin j (mem_range.1 hj)
          linarith
        rwa [h2] at h1
      have h3 := tendsto_finsetSum (range L) this
      simpa using h3
    refine tendsto_of_tendsto_of_tendsto_of_le_of_le tendsto_const_nhds hsum ?_ ?_
    · intro foc
      have := (runMax_real (fun n => focDist foc ang (gx n)) 0 L).2.1 m hm
      show 0 ≤ _
      linarith
    · intro foc
      obtain ⟨_, j, hj, e⟩ := runMax_dist L (by omega) (fun n => focDist foc ang (gx n))
        (fun n => Real.sqrt_nonneg _)
      beta_reduce
      rw [e]
      refine le_trans (le_max_right 0 _) ?_
      exact single_le_sum (f := fun j => max 0 (focDist foc ang (gx j) - focDist foc ang (gx m)))
        (fun _ _ => le_max_left _ _) (mem_range.2 hj)
  have htot : Tendsto (fun foc => ((runMax (fun n => focDist foc ang (gx n)) 0 L -
        focDist foc ang (gx m)) + (focDist foc ang (gx m) - focDist foc ang (gx n))) * 1000 / cp) atTop
      (𝓝 ((0 + (gx n - gx m) * Real.sin (ang * Real.pi / 180)) * 1000 / cp)) :=
    ((hmax.add (hd (gx m) (gx n))).mul_const 1000).div_const cp
  rw [zero_add] at htot
  refine htot.congr' ?_
  filter_upwards [eventually_ge_atTop (0 : ℝ)] with foc hf
  rw [arrFocusDelays_pos L gx cp foc ang hf]
  congr 2; ring

/-- C77: for an array that reaches from `-x_max` (at element `m`) and an angle from 0 to 90 degrees, these
are the steering delays of the array functions (method `x`). -/
theorem C77_far_focus_steers (G : Buf ℝ) (num : ℕ) (h1 : 1 ≤ num) (hG : 3 * num ≤ G.size) (d : Dims ℝ)
    (hd : maxDimArr G num = .ok d) (cp ang phi gy : ℝ) (ha0 : 0 ≤ ang) (ha : ang < 90) (m : ℕ)
    (hm : m < num) (hleft : G.data m = -d.xmax) (n : ℕ) :
    Tendsto (fun foc => arrFocusDelays num G.data cp foc ang n) atTop
      (𝓝 (beamsteering .x ang phi (G.data n) gy d cp)) := by
  have hs : 0 ≤ Real.sin (ang * Real.pi / 180) := by
    have := sin_deg_nonneg ha0 (by linarith)
    rwa [← mul_div_assoc] at this
  have := C77_far_focus num G.data cp ang (by rw [abs_of_nonneg ha0]; exact ha) m hm (fun j hj => by
    have hc := (covers_of_maxDim G num h1 hG d hd j hj).x
    have := neg_le_of_abs_le hc
    rw [hleft]
    exact mul_le_mul_of_nonneg_right this hs) n
  rw [beamsteering_x, ← mul_div_assoc]
  rwa [hleft, sub_neg_eq_add, add_comm (G.data n)] at this

/-- C77 in every monotonically rounded arithmetic: the delays of `arr_focus_delays` are not negative for
focal depths that are not negative. -/
theorem C77_nonneg_rounded {F : Type} [Arith F] (R : RoundLaws F) (L : ℕ) (gx : ℕ → F) (cp foc ang : F)
    (hcp : lt (lit 0) cp = true) (hf : lt foc (lit 0) = false) (n : ℕ) (hn : n < L) :
    le (lit 0) (arrFocusDelays L gx cp foc ang n) = true := by
  have key : ∀ (r : ℕ → F) (c : F) (k : ℕ), (∀ n, n < k → le (r n) (runMax r c k) = true) := by
    intro r c k
    induction k with
    | zero => intro n h; omega
    | succ k ih =>
      intro n hn
      simp only [runMax]
      by_cases hk : n = k
      · subst hk
        split
        · exact R.refl _
        · next h => exact R.total _ _ (by simpa using h)
      · have h := ih n (by omega)
        split
        · next h2 => exact R.trans _ _ _ h (R.lt_le _ _ h2)
        · exact h
  simp only [arrFocusDelays, hf, Bool.false_eq_true, if_false]
  exact R.div _ _ (R.mul _ _ (R.sub _ _ (key (fun n => focNorm foc ang (gx n)) _ L n hn)) R.thousand) hcp

/-! ### C78: h2o_soundspeed -/

/-- The formula of Del Grosso (J. Acoust. Soc. Am. 56, 1974) with the coefficients the function uses:
`T` in degrees Celsius, `P` in kg/cm², `S` in parts per thousand. -/
noncomputable def delGrosso (T P S : ℝ) : ℝ :=
  1402.392 + (0.501109398873e1 * T - 0.550946843172e-1 * T ^ 2 + 0.221535969240e-3 * T ^ 3) +
  (0.132952290781e1 * S + 0.128955756844e-3 * S ^ 2) +
  (0.156059257041 * P + 0.244998688441e-4 * P ^ 2 - 0.883392332513e-8 * P ^ 3) +
  (-0.127562783426e-1 * T * S + 0.635191613389e-2 * T * P + 0.265484716608e-7 * T ^ 2 * P ^ 2
    - 0.159349479045e-5 * T * P ^ 2 + 0.522116437235e-9 * T * P ^ 3 - 0.438031096213e-6 * T ^ 3 * P
    - 0.161674495909e-8 * S ^ 2 * P ^ 2 + 0.968403156410e-4 * T ^ 2 * S
    + 0.485639620015e-5 * T * S ^ 2 * P - 0.340597039004e-3 * T * S * P)

/-- C78: what the function returns, for all arguments: three terms differ from the formula (the exponent
of the `S² P²` term is missing, the `S²` and the `T P²` term have the wrong power). -/
theorem C78_difference (T P S : ℝ) (u : List Char) :
    h2oSoundspeed T (some P) (some u) (some S) =
      delGrosso T (P * (PressureUnit.ofText u).factor) S
        - 0.161674495909
        + (0.161674495909e-8 - 8) * S ^ 2 * (P * (PressureUnit.ofText u).factor) ^ 2
        + 0.128955756844e-3 * (S ^ 3 - S ^ 2)
        + 0.159349479045e-5 * T * ((P * (PressureUnit.ofText u).factor) ^ 2
          - (P * (PressureUnit.ofText u).factor) ^ 3) := by
  simp only [h2oSoundspeed, Option.getD_some, h2oPoly, delGrosso, r_mul, r_add, r_sub, r_neg, r_lit]
  push_cast
  ring

/-- C78: in fresh water at atmospheric pressure the error is at most 0.17 m/s up to 100 degrees. -/
theorem C78_fresh_water (T : ℝ) (h0 : 0 ≤ T) (h1 : T ≤ 100) :
    h2oSoundspeed T none none none ≤ delGrosso T (101325 * 10.197e-6) 0 - 0.16 ∧
    delGrosso T (101325 * 10.197e-6) 0 - 0.17 ≤ h2oSoundspeed T none none none := by
  have e : h2oSoundspeed T none none none = h2oSoundspeed T (some (101325 : ℝ)) (some ['P', 'a']) (some 0) := by
    simp [h2oSoundspeed]
  have hu : PressureUnit.ofText ['P', 'a'] = .pa := by decide
  rw [e, C78_difference, hu]
  simp only [PressureUnit.factor, r_lit]
  norm_num
  constructor <;> nlinarith

/-- C78: for sea water the returned speed of sound is negative, at any temperature from 0 to 40 degrees
and any pressure from one atmosphere (1.0332 at) to 1000 at. -/
theorem C78_sea_water (T P S : ℝ) (hT0 : 0 ≤ T) (hT1 : T ≤ 40) (hP0 : 1.0332 ≤ P) (hP1 : P ≤ 1000)
    (hS0 : 30 ≤ S) (hS1 : S ≤ 45) : h2oSoundspeed T (some P) (some ['a', 't']) (some S) < -5000 := by
  have hu : PressureUnit.ofText ['a', 't'] = .at := by decide
  rw [C78_difference, hu]
  simp only [PressureUnit.factor, r_lit, delGrosso]
  push_cast
  rw [mul_one]
  have p1 : 1 ≤ P := by linarith
  have hP : P ≤ P ^ 2 := by nlinarith
  have hP2 : 1.067 ≤ P ^ 2 := by nlinarith
  have hP3 : P ^ 3 ≤ 1000 * P ^ 2 := by nlinarith [sq_nonneg P]
  have hP3' : 0 ≤ P ^ 3 := by positivity
  have hT2 : T ^ 2 ≤ 1600 := by nlinarith
  have hT3 : T ^ 3 ≤ 64000 := by
    have := pow_le_pow_left₀ hT0 hT1 3; norm_num at this; exact this
  have hT2' : 0 ≤ T ^ 2 := by positivity
  have hT3' : 0 ≤ T ^ 3 := by positivity
  have hS2 : 900 ≤ S ^ 2 := by nlinarith
  have hS2' : S ^ 2 ≤ 2025 := by nlinarith
  have hS3 : S ^ 3 ≤ 91125 := by
    have := pow_le_pow_left₀ (by linarith) hS1 3; norm_num at this; exact this
  have q1 : T * P ≤ 40 * P ^ 2 := by nlinarith
  have q2 : T ^ 2 * P ^ 2 ≤ 1600 * P ^ 2 := by nlinarith [sq_nonneg P]
  have q3 : 0 ≤ T * P ^ 3 := by positivity
  have q3' : T * P ^ 3 ≤ 40000 * P ^ 2 := by nlinarith [sq_nonneg P]
  have q4 : 0 ≤ T ^ 3 * P := by positivity
  have q5 : 900 * P ^ 2 ≤ S ^ 2 * P ^ 2 := by nlinarith [sq_nonneg P]
  have q6 : T ^ 2 * S ≤ 1600 * 45 := by nlinarith
  have q7 : T * S ^ 2 * P ≤ 81000 * P ^ 2 := by
    have : T * S ^ 2 ≤ 81000 := by nlinarith
    nlinarith
  have q8 : 0 ≤ T * S * P := by positivity
  have q9 : 0 ≤ T * S := by positivity
  have q10 : 0 ≤ T * P ^ 2 := by positivity
  have q11 : T * P ^ 2 ≤ 40 * P ^ 2 := by nlinarith [sq_nonneg P]
  nlinarith

/-- C78: one atmosphere written in any of the six units is the same pressure to within 0.1 per cent. -/
theorem C78_units (u : PressureUnit) :
    |(match u with
      | .pa => (101325 : ℝ)
      | .bar => 1.01325
      | .at => 1.03323
      | .atm => 1
      | .mmHg => 760
      | .psi => 14.6959) * u.factor - 1.0332| ≤ (0.001 : ℝ) := by
  rw [abs_le]
  cases u <;> simp only [PressureUnit.factor, r_lit] <;> norm_num

/-- C78: capitals make no difference. -/
theorem C78_capitals (T P S : ℝ) (u v : List Char) (h : u.map Char.toLower = v.map Char.toLower) :
    h2oSoundspeed T (some P) (some u) (some S) = h2oSoundspeed T (some P) (some v) (some S) := by
  have e : PressureUnit.ofText u = PressureUnit.ofText v := by
    simp only [PressureUnit.ofText, h]
  simp only [h2oSoundspeed, Option.getD_some, e]

/-- C78: a unit that is not in the list counts as Pascal, as does leaving it out. -/
theorem C78_unknown_unit (T P S : ℝ) (u : List Char)
    (h : u.map Char.toLower ∉ [['p', 'a'], ['b', 'a', 'r'], ['a', 't'], ['a', 't', 'm'],
      ['m', 'm', 'h', 'g'], ['p', 's', 'i']]) :
    h2oSoundspeed T (some P) (some u) (some S) = h2oSoundspeed T (some P) (some ['P', 'a']) (some S) ∧
    h2oSoundspeed T (some P) none (some S) = h2oSoundspeed T (some P) (some ['P', 'a']) (some S) := by
  simp only [List.mem_cons, List.not_mem_nil, or_false, not_or] at h
  obtain ⟨h1, h2, h3, h4, h5, h6⟩ := h
  have e : PressureUnit.ofText u = .pa := by
    simp [PressureUnit.ofText, h1, h2, h3, h4, h5, h6]
  have hu : PressureUnit.ofText ['P', 'a'] = .pa := by decide
  constructor
  · simp only [h2oSoundspeed, Option.getD_some, e, hu]
  · rfl

/-! ### The hypotheses can be met -/

section Examples

example : [['P', 'a'], ['P', 'A'], ['b', 'a', 'r'], ['a', 't'], ['A', 'T', 'M'], ['m', 'm', 'H', 'g'],
      ['p', 's', 'i'], ['t', 'o', 'r', 'r']].map PressureUnit.ofText =
    [.pa, .pa, .bar, .at, .atm, .mmHg, .psi, .pa] := by decide

-- C78_unknown_unit
example : ['t', 'o', 'r', 'r'].map Char.toLower ∉ [['p', 'a'], ['b', 'a', 'r'], ['a', 't'],
    ['a', 't', 'm'], ['m', 'm', 'h', 'g'], ['p', 's', 'i']] := by decide

-- C77: three elements at -4, 0, 3, focal depth 3, no steering: distances 5, 3, sqrt 18
example : focDist 3 0 (-4) = 5 ∧ focDist 3 0 0 = 3 := by
  constructor
  · rw [focDist, show (3 * Real.tan (0 * Real.pi / 180) - (-4)) ^ 2 + (3 : ℝ) ^ 2 = 5 ^ 2 by
      simp; norm_num]
    exact Real.sqrt_sq (by norm_num)
  · rw [focDist, show (3 * Real.tan (0 * Real.pi / 180) - 0) ^ 2 + (3 : ℝ) ^ 2 = 3 ^ 2 by simp]
    exact Real.sqrt_sq (by norm_num)

/-- Elements at (-3, 2) and (1, -4). -/
noncomputable def exFocG : Buf ℝ := { size := 6, data := fun i => ([-3, 1, 2, -4, 0, 0] : List ℝ).getD i 0 }

-- C77_focusing_x, C77_far_focus_steers: element 0 is at -x_max
example : ∃ d, maxDimArr exFocG 2 = .ok d ∧ 3 * 2 ≤ exFocG.size ∧ exFocG.data 0 = -d.xmax := by
  obtain ⟨d, h0, h1, ⟨n, hn, h2⟩, _⟩ := C20_aperture exFocG 2 (by norm_num) (by simp [exFocG])
  refine ⟨d, h0, by simp [exFocG], ?_⟩
  have a0 := h1 0 (by norm_num)
  have hn' : n = 0 ∨ n = 1 := by omega
  rcases hn' with rfl | rfl <;> norm_num [exFocG] at a0 h2 ⊢ <;> linarith

-- C77_ud_is_x: an array focused at depth 7
example : ∃ A : ArrPar ℝ, 1 ≤ A.num ∧ 3 * A.num ≤ A.G.size ∧ A.focMet = .x ∧ 1 ≤ A.focal.size ∧
    0 ≤ A.focal.data 0 :=
  ⟨{ num := 2, G := exFocG, focMet := .x, focal := ⟨1, fun _ => 7⟩, steerMet := .none, theta := 0,
     phi := 0, doApod := false, apod := ⟨0, fun _ => 0⟩, apodMet := .triangle, apodPar := 0 },
    by norm_num, by simp [exFocG], rfl, by norm_num, by norm_num⟩

-- C77_nonneg_rounded
example : RoundLaws ℝ := realRoundLaws

end Examples

end Dream
