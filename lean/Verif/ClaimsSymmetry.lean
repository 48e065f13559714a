import Verif.ClaimsConverge

/-
C81: change of units and mirror symmetry of the responses.
-/

namespace Dream
open Finset

/-! ### Change of the unit of length -/

/-- The transducer with all lengths multiplied by `c`. -/
def Kern.scale (c : ℝ) : Kern ℝ → Kern ℝ
  | .rect w a b => .rect w (c * a) (c * b)
  | .circ w R => .circ w (c * R)
  | .cylind w a b Rc => .cylind w (c * a) (c * b) (c * Rc)
  | .line a => .line (c * a)
  | .rectF met f a b => .rectF met (c * f) (c * a) (c * b)
  | .circF met f R => .circF met (c * f) (c * R)
  | .sphere R Rc => .sphere (c * R) (c * Rc)

/-- Sampling parameters with all lengths and times multiplied by `c`. -/
def Par.scale (c : ℝ) (p : Par ℝ) : Par ℝ :=
  { p with dx := c * p.dx, dy := c * p.dy, dt := c * p.dt, delay := c * p.delay }

theorem cell_scale (c a d : ℝ) (j : ℕ) : cell (c * a) (c * d) j = c * cell a d j := by
  unfold cell; ring

theorem floor_scale {c : ℝ} (hc : 0 < c) (a d : ℝ) :
    ⌊c * a / (c * d) + 1 / 2⌋₊ = ⌊a / d + 1 / 2⌋₊ := by
  rw [mul_div_mul_left _ _ hc.ne']

theorem sqrt_scale {c : ℝ} (hc : 0 < c) (u : ℝ) : Real.sqrt (c ^ 2 * u) = c * Real.sqrt u := by
  rw [Real.sqrt_mul (by positivity), Real.sqrt_sq hc.le]

theorem discHalf_scale {c : ℝ} (hc : 0 < c) (R dy : ℝ) (q : ℕ) :
    discHalf (c * R) (c * dy) q = c * discHalf R dy q := by
  unfold discHalf
  rw [show 2 * (c * R) = c * (2 * R) by ring, cell_scale, ← sqrt_scale hc]
  congr 1; ring

theorem focusTime_scale {c : ℝ} (hc : 0 < c) (e d f cp : ℝ) :
    focusTime (c * e) (c * d) (c * f) cp = c * focusTime e d f cp := by
  unfold focusTime
  rw [show (c * e) ^ 2 + (c * f) ^ 2 = c ^ 2 * (e ^ 2 + f ^ 2) by ring,
    show (c * d) ^ 2 + (c * f) ^ 2 = c ^ 2 * (d ^ 2 + f ^ 2) by ring, sqrt_scale hc, sqrt_scale hc]
  ring

/-- One surface is the other with all lengths multiplied by `c` and the focusing delays by `c`. -/
structure Surf.Scaled (S T : Surf) (c : ℝ) : Prop where
  rows : T.rows = S.rows
  cols : ∀ q, T.cols q = S.cols q
  x : ∀ q j, T.x q j = c * S.x q j
  y : ∀ q j, T.y q j = c * S.y q j
  z : ∀ q j, T.z q j = c * S.z q j
  area : T.area = c ^ 2 * S.area
  foc : ∀ q j, T.foc q j = c * S.foc q j

theorem Surf.Scaled.dist {S T : Surf} {c : ℝ} (h : S.Scaled T c) (hc : 0 < c) (xo yo zo : ℝ) (q j : ℕ) :
    T.dist (c * xo) (c * yo) (c * zo) q j = c * S.dist xo yo zo q j := by
  unfold Surf.dist
  rw [h.x, h.y, h.z, ← sqrt_scale hc]
  congr 1; ring

theorem Surf.Scaled.arrives {S T : Surf} {c : ℝ} (h : S.Scaled T c) (hc : 0 < c)
    (cp delay dt xo yo zo : ℝ) (q j : ℕ) :
    T.arrives cp (c * delay) (c * dt) (c * xo) (c * yo) (c * zo) q j =
      S.arrives cp delay dt xo yo zo q j := by
  unfold Surf.arrives arrivalSample
  rw [h.dist hc, h.foc, show c * S.dist xo yo zo q j * 1000 / cp - (c * delay - c * S.foc q j) =
    c * (S.dist xo yo zo q j * 1000 / cp - (delay - S.foc q j)) by ring, mul_div_mul_left _ _ hc.ne']

theorem Surf.Scaled.response {S T : Surf} {c : ℝ} (h : S.Scaled T c) (hc : 0 < c)
    (v cp delay dt xo yo zo : ℝ) (i : ℕ) :
    T.response v cp (c * delay) (c * dt) (c * xo) (c * yo) (c * zo) i =
      S.response v cp delay dt xo yo zo i := by
  unfold Surf.response
  rw [h.rows]
  refine Finset.sum_congr rfl fun q _ => ?_
  rw [h.cols]
  refine Finset.sum_congr rfl fun j _ => ?_
  rw [h.arrives hc, h.dist hc, h.area]
  split
  · congr 1
    rw [show v * (c ^ 2 * S.area) / (2 * Real.pi * (c * S.dist xo yo zo q j)) / (c * dt) =
      (c ^ 2 * (v * S.area)) / (c ^ 2 * (2 * Real.pi * S.dist xo yo zo q j * dt)) by
        rw [div_div]; ring_nf, mul_div_mul_left _ _ (by positivity), div_div]
  · rfl

theorem Kern.surf_scaled (k : Kern ℝ) (p : Par ℝ) {c : ℝ} (hc : 0 < c) :
    (k.surf p).Scaled ((k.scale c).surf (p.scale c)) c := by
  have hd : ∀ R : ℝ, (discSurf R p.dx p.dy).Scaled (discSurf (c * R) (c * p.dx) (c * p.dy)) c := by
    intro R
    have h2 : 2 * (c * R) = c * (2 * R) := by ring
    have h3 : ∀ q, 2 * (c * discHalf R p.dy q) = c * (2 * discHalf R p.dy q) := fun q => by ring
    refine ⟨?_, fun q => ?_, fun q j => ?_, fun q j => ?_, fun q j => ?_, ?_, fun q j => ?_⟩
    · simp only [discSurf, h2, floor_scale hc]
    · simp only [discSurf, discHalf_scale hc, h3, floor_scale hc]
    · simp only [discSurf, discHalf_scale hc, h3, cell_scale]
    · simp only [discSurf, h2, cell_scale]
    · simp only [discSurf, mul_zero]
    · simp only [discSurf]; ring
    · simp only [discSurf, mul_zero]
  have hr : ∀ a b : ℝ,
      (rectSurf a b p.dx p.dy).Scaled (rectSurf (c * a) (c * b) (c * p.dx) (c * p.dy)) c := by
    intro a b
    refine ⟨?_, fun q => ?_, fun q j => ?_, fun q j => ?_, fun q j => ?_, ?_, fun q j => ?_⟩ <;>
      simp only [rectSurf, floor_scale hc, cell_scale, mul_zero]
    ring
  have hf : ∀ (S T : Surf) (met : FocusMet) (f ex ey er : ℝ), S.Scaled T c →
      (S.focused met f ex ey er p.cp).Scaled
        (T.focused met (c * f) (c * ex) (c * ey) (c * er) p.cp) c := by
    intro S T met f ex ey er h
    refine ⟨h.rows, h.cols, h.x, h.y, h.z, h.area, fun q j => ?_⟩
    have e1 : Real.sqrt ((c * S.x q j) ^ 2 + (c * S.y q j) ^ 2) =
        c * Real.sqrt (S.x q j ^ 2 + S.y q j ^ 2) := by
      rw [← sqrt_scale hc]; congr 1; ring
    have e2 : Real.sqrt ((c * S.y q j) ^ 2 + (c * f) ^ 2) = c * Real.sqrt (S.y q j ^ 2 + f ^ 2) := by
      rw [← sqrt_scale hc]; congr 1; ring
    cases met <;> simp only [Surf.focused, h.x, h.y, e1, e2, focusTime_scale hc, mul_zero]
    ring
  cases k with
  | rect w a b => exact hr a b
  | circ w R => exact hd R
  | circF met f R => exact hf _ _ met f R R R (hd R)
  | rectF met f a b =>
    have := hf _ _ met f a b (Real.sqrt (a ^ 2 + b ^ 2)) (hr a b)
    rw [← sqrt_scale hc, show c ^ 2 * (a ^ 2 + b ^ 2) = (c * a) ^ 2 + (c * b) ^ 2 by ring] at this
    exact this
  | line a =>
    refine ⟨rfl, fun q => ?_, fun q j => ?_, fun q j => ?_, fun q j => ?_, ?_, fun q j => ?_⟩ <;>
      simp only [Kern.surf, Kern.scale, Par.scale, lineSurf, floor_scale hc, cell_scale, mul_zero]
    ring
  | sphere R Rc =>
    have h := hd R
    refine ⟨h.rows, h.cols, h.x, h.y, fun q j => ?_, h.area, h.foc⟩
    show (if 0 ≤ c * Rc then _ else _) = c * (if 0 ≤ Rc then _ else _)
    have hs : Real.sqrt ((c * Rc) ^ 2 - (discSurf (c * R) (c * p.dx) (c * p.dy)).x q j ^ 2 -
        (discSurf (c * R) (c * p.dx) (c * p.dy)).y q j ^ 2) =
        c * Real.sqrt (Rc ^ 2 - (discSurf R p.dx p.dy).x q j ^ 2 - (discSurf R p.dx p.dy).y q j ^ 2) := by
      rw [h.x, h.y, ← sqrt_scale hc]; congr 1; ring
    by_cases h0 : 0 ≤ Rc
    · rw [if_pos h0, if_pos (by positivity)]
      exact (congrArg (c * Rc - ·) hs).trans (by ring)
    · rw [if_neg h0, if_neg (by push_neg at h0 ⊢; exact mul_neg_of_pos_of_neg hc h0)]
      exact (congrArg (c * Rc + ·) hs).trans (by ring)
  | cylind w a b Rc =>
    have ha : |c * Rc| = c * |Rc| := by rw [abs_mul, abs_of_pos hc]
    have h1 : c * b / 2 / (c * |Rc|) = b / 2 / |Rc| := by
      rw [mul_div_assoc, mul_div_mul_left _ _ hc.ne']
    have h2 : c * p.dy / (c * |Rc|) = p.dy / |Rc| := mul_div_mul_left _ _ hc.ne'
    refine ⟨?_, fun q => ?_, fun q j => ?_, fun q j => ?_, fun q j => ?_, ?_, fun q j => ?_⟩ <;>
      simp only [Kern.surf, Kern.scale, Par.scale, cylindSurf, ha, h1, h2, floor_scale hc, cell_scale,
        mul_zero]
    · ring
    · ring
    · ring

/-- C81, unit of length: multiply all lengths (transducer, cells, observation point) and all times
(delay, sampling interval) by the same factor, and the response is unchanged. -/
theorem C81_length (k : Kern ℝ) (p : Par ℝ) (v delay xo yo zo c : ℝ) (hc : 0 < c) (i : ℕ) :
    ((k.scale c).surf (p.scale c)).response v p.cp (c * delay) (c * p.dt) (c * xo) (c * yo) (c * zo) i =
      (k.surf p).response v p.cp delay p.dt xo yo zo i :=
  (k.surf_scaled p hc).response hc v p.cp delay p.dt xo yo zo i

/-- C81, unit of time: divide the sound speed and multiply delay and sampling interval by the same
factor, and the response is divided by it. -/
theorem C81_time (k : Kern ℝ) (p : Par ℝ) (v delay xo yo zo c : ℝ) (hc : 0 < c) (i : ℕ) :
    (k.surf { p with cp := p.cp / c, dt := c * p.dt }).response v (p.cp / c) (c * delay) (c * p.dt)
      xo yo zo i = (k.surf p).response v p.cp delay p.dt xo yo zo i / c := by
  have hfoc : ∀ e d f : ℝ, focusTime e d f (p.cp / c) = c * focusTime e d f p.cp := by
    intro e d f
    unfold focusTime
    rw [div_div_eq_mul_div]; ring
  set T := k.surf { p with cp := p.cp / c, dt := c * p.dt } with hT
  set S := k.surf p with hS
  have h : T.rows = S.rows ∧ (∀ q, T.cols q = S.cols q) ∧
      (∀ q j, T.dist xo yo zo q j = S.dist xo yo zo q j) ∧ T.area = S.area ∧
      ∀ q j, T.foc q j = c * S.foc q j := by
    cases k with
    | rectF met f a b =>
      refine ⟨rfl, fun _ => rfl, fun _ _ => rfl, rfl, fun q j => ?_⟩
      cases met <;> simp only [hT, hS, Kern.surf, Surf.focused, hfoc, mul_zero]
      rw [div_div_eq_mul_div]; ring
    | circF met f R =>
      refine ⟨rfl, fun _ => rfl, fun _ _ => rfl, rfl, fun q j => ?_⟩
      cases met <;> simp only [hT, hS, Kern.surf, Surf.focused, hfoc, mul_zero]
      rw [div_div_eq_mul_div]; ring
    | _ => exact ⟨rfl, fun _ => rfl, fun _ _ => rfl, rfl, fun _ _ => (mul_zero c).symm⟩
  obtain ⟨h1, h2, h3, h4, h5⟩ := h
  have harr : ∀ q j, T.arrives (p.cp / c) (c * delay) (c * p.dt) xo yo zo q j =
      S.arrives p.cp delay p.dt xo yo zo q j := by
    intro q j
    unfold Surf.arrives arrivalSample
    rw [h3, h5, div_div_eq_mul_div, show S.dist xo yo zo q j * 1000 * c / p.cp -
      (c * delay - c * S.foc q j) = c * (S.dist xo yo zo q j * 1000 / p.cp - (delay - S.foc q j)) by ring,
      mul_div_mul_left _ _ hc.ne']
  unfold Surf.response
  rw [h1, Finset.sum_div]
  refine Finset.sum_congr rfl fun q _ => ?_
  rw [h2, Finset.sum_div]
  refine Finset.sum_congr rfl fun j _ => ?_
  rw [harr, h3, h4]
  split
  · field_simp
  · simp

/-- The call with all lengths and times multiplied by `c`. -/
def SirCall.scale (c : ℝ) (D : SirCall ℝ) : SirCall ℝ :=
  { D with
    k := D.k.scale c
    p := D.p.scale c
    Ro := { D.Ro with data := fun i => c * D.Ro.data i }
    delay := { D.delay with data := fun i => c * D.delay.data i } }

/-- C81 for calls without attenuation: with all lengths and times multiplied by the same factor, the
output is the same, whatever the number of threads and the schedule of either call. -/
theorem C81_call (D : SirCall ℝ) (m : Buf ℝ) (hs : D.Sized m) (hatt : D.att = none)
    (hg : D.k.GoodGeo D.p) (hz : ∀ i, i < m.size → m.data i = 0)
    (hfit : ∀ n < D.No, ∀ q < (D.k.surf D.p).rows, ∀ j < (D.k.surf D.p).cols q,
      D.ty.fits ((D.k.surf D.p).arrives D.p.cp (D.delayFor n) D.p.dt (D.obs n).1 (D.obs n).2.1
        (D.obs n).2.2 q j) = true)
    (hl : D.level = .ignore ∨ D.level = .warn ∨ D.level = .none) (c : ℝ) (hc : 0 < c)
    (nth nth' : ℕ) (h1 : 1 ≤ nth) (h1' : 1 ≤ nth') (as as' : List Act) (hab : Act.abort ∉ as)
    (hab' : Act.abort ∉ as') (s s' : Sys ℝ (KLoc ℝ)) (hr : D.Run nth m as s)
    (hr' : (D.scale c).Run nth' m as' s') (n : ℕ) (hn : n < D.No) (i : ℕ) (hi : i < D.nt) :
    s'.mem.data (n * D.nt + i) = s.mem.data (n * D.nt + i) := by
  have hsc := D.k.surf_scaled D.p hc
  have hdel : ∀ n, (D.scale c).delayFor n = c * D.delayFor n := fun n => rfl
  have hobs : ∀ n, (D.scale c).obs n = (c * (D.obs n).1, c * (D.obs n).2.1, c * (D.obs n).2.2) :=
    fun n => rfl
  have harr : ∀ n q j, (((D.scale c).k).surf (D.scale c).p).arrives (D.scale c).p.cp
      ((D.scale c).delayFor n) (D.scale c).p.dt ((D.scale c).obs n).1 ((D.scale c).obs n).2.1
      ((D.scale c).obs n).2.2 q j =
      (D.k.surf D.p).arrives D.p.cp (D.delayFor n) D.p.dt (D.obs n).1 (D.obs n).2.1
        (D.obs n).2.2 q j := by
    intro n q j
    rw [hdel, hobs]
    exact hsc.arrives hc D.p.cp (D.delayFor n) D.p.dt (D.obs n).1 (D.obs n).2.1 (D.obs n).2.2 q j
  have ho := C53_output D m hs hatt hg hz hfit (.inl hl) nth h1 as hab s hr n hn i hi
  have hg' : (D.scale c).k.GoodGeo (D.scale c).p := by
    refine ⟨mul_pos hc hg.1, mul_pos hc hg.2.1, fun w a b Rc h => ?_⟩
    have hD : (D.scale c).k = D.k.scale c := rfl
    rw [hD] at h
    cases hk : D.k with
    | cylind w' a' b' Rc' =>
      obtain ⟨g1, g2⟩ := hg.2.2 w' a' b' Rc' hk
      rw [hk] at h
      simp only [Kern.scale, Kern.cylind.injEq] at h
      obtain ⟨-, -, rfl, rfl⟩ := h
      refine ⟨by positivity, ?_⟩
      rw [abs_mul, abs_of_pos hc]
      nlinarith
    | _ => rw [hk] at h; simp [Kern.scale] at h
  have ho' := C53_output (D.scale c) m ⟨hs.ro, hs.delay, hs.out⟩ hatt hg' hz (by
      intro n hn q hq j hj
      rw [harr]
      exact hfit n hn q (by rw [← hsc.rows]; exact hq) j (by rw [← hsc.cols]; exact hj))
    (.inl hl) nth' h1' as' hab' s' hr' n hn i hi
  have hwt : (D.scale c).k.wt = D.k.wt := by
    show (D.k.scale c).wt = D.k.wt
    cases D.k <;> rfl
  rw [ho]
  refine Eq.trans ho' ?_
  rw [hwt, hdel, hobs]
  exact hsc.response hc _ _ _ _ _ _ _ _

/-! ### Mirror symmetry -/

theorem Surf.mirror_x (S : Surf) (v cp delay dt xo yo zo : ℝ) (i : ℕ)
    (h : ∀ q < S.rows, ∀ j < S.cols q, S.x q (S.cols q - 1 - j) = -S.x q j ∧
      S.y q (S.cols q - 1 - j) = S.y q j ∧ S.z q (S.cols q - 1 - j) = S.z q j ∧
      S.foc q (S.cols q - 1 - j) = S.foc q j) :
    S.response v cp delay dt (-xo) yo zo i = S.response v cp delay dt xo yo zo i := by
  unfold Surf.response
  refine Finset.sum_congr rfl fun q hq => ?_
  rw [← Finset.sum_range_reflect]
  refine Finset.sum_congr rfl fun j hj => ?_
  obtain ⟨h1, h2, h3, h4⟩ := h q (Finset.mem_range.mp hq) j (Finset.mem_range.mp hj)
  have hd : S.dist (-xo) yo zo q (S.cols q - 1 - j) = S.dist xo yo zo q j := by
    unfold Surf.dist
    rw [h1, h2, h3]; congr 1; ring
  unfold Surf.arrives
  rw [hd, h4]

theorem Surf.mirror_y (S : Surf) (v cp delay dt xo yo zo : ℝ) (i : ℕ)
    (hc : ∀ q < S.rows, S.cols (S.rows - 1 - q) = S.cols q)
    (h : ∀ q < S.rows, ∀ j < S.cols q, S.x (S.rows - 1 - q) j = S.x q j ∧
      S.y (S.rows - 1 - q) j = -S.y q j ∧ S.z (S.rows - 1 - q) j = S.z q j ∧
      S.foc (S.rows - 1 - q) j = S.foc q j) :
    S.response v cp delay dt xo (-yo) zo i = S.response v cp delay dt xo yo zo i := by
  unfold Surf.response
  rw [← Finset.sum_range_reflect]
  refine Finset.sum_congr rfl fun q hq => ?_
  rw [hc q (Finset.mem_range.mp hq)]
  refine Finset.sum_congr rfl fun j hj => ?_
  obtain ⟨h1, h2, h3, h4⟩ := h q (Finset.mem_range.mp hq) j (Finset.mem_range.mp hj)
  have hd : S.dist xo (-yo) zo (S.rows - 1 - q) j = S.dist xo yo zo q j := by
    unfold Surf.dist
    rw [h1, h2, h3]; congr 1; ring
  unfold Surf.arrives
  rw [hd, h4]

theorem floor_mul {d : ℝ} (hd : 0 < d) (N : ℕ) : ⌊(N : ℝ) * d / d + 1 / 2⌋₊ = N := by
  rw [mul_div_cancel_right₀ _ hd.ne', Nat.floor_eq_iff (by positivity)]
  constructor <;> linarith

theorem cell_mirror (d : ℝ) (N j : ℕ) (hj : j < N) :
    cell ((N : ℝ) * d) d (N - 1 - j) = -cell ((N : ℝ) * d) d j := by
  unfold cell
  have : ((N - 1 - j : ℕ) : ℝ) = (N : ℝ) - 1 - j := by
    rw [Nat.cast_sub (by omega), Nat.cast_sub (by omega)]; simp
  rw [this]; ring

theorem focusTime_even (e d f cp : ℝ) : focusTime e (-d) f cp = focusTime e d f cp := by
  unfold focusTime; rw [neg_sq]

/-- C81, mirror in the plane `x = 0`: for the rectangle, focused or not, the line and the cylinder, if
the width is a whole number of cells the response at the mirrored point is the same. -/
theorem C81_mirror_x (k : Kern ℝ) (p : Par ℝ) (hdx : 0 < p.dx) (N : ℕ)
    (hk : (∃ w b, k = .rect w (N * p.dx) b) ∨ (∃ met f b, k = .rectF met f (N * p.dx) b) ∨
      k = .line (N * p.dx) ∨ ∃ w b Rc, k = .cylind w (N * p.dx) b Rc)
    (v delay xo yo zo : ℝ) (i : ℕ) :
    (k.surf p).response v p.cp delay p.dt (-xo) yo zo i =
      (k.surf p).response v p.cp delay p.dt xo yo zo i := by
  have hf := floor_mul hdx N
  have hc := cell_mirror p.dx N
  apply Surf.mirror_x
  intro q hq j hj
  rcases hk with ⟨w, b, rfl⟩ | ⟨met, f, b, rfl⟩ | rfl | ⟨w, b, Rc, rfl⟩
  · simp only [Kern.surf, rectSurf, hf] at hj ⊢
    exact ⟨hc j hj, trivial, trivial, trivial⟩
  · simp only [Kern.surf, Surf.focused, rectSurf, hf] at hj ⊢
    refine ⟨hc j hj, trivial, trivial, ?_⟩
    cases met <;> simp only [hc j hj, focusTime_even, neg_sq]
  · simp only [Kern.surf, lineSurf, hf] at hj ⊢
    exact ⟨hc j hj, trivial, trivial, trivial⟩
  · simp only [Kern.surf, cylindSurf, hf] at hj ⊢
    exact ⟨hc j hj, trivial, trivial, trivial⟩

/-- C81, mirror in the plane `y = 0`: for rectangles and discs, focused or not, spherical caps and
cylinders, if the height (for the cylinder the angle) is a whole number of cells, and for every line,
the response at the mirrored point is the same. -/
theorem C81_mirror_y (k : Kern ℝ) (p : Par ℝ) (hdy : 0 < p.dy) (N : ℕ)
    (hk : (∃ w a, k = .rect w a (N * p.dy)) ∨ (∃ met f a, k = .rectF met f a (N * p.dy)) ∨
      (∃ w R, k = .circ w R ∧ 2 * R = N * p.dy) ∨ (∃ met f R, k = .circF met f R ∧ 2 * R = N * p.dy) ∨
      (∃ R Rc, k = .sphere R Rc ∧ 2 * R = N * p.dy) ∨ (∃ a, k = .line a) ∨
      ∃ w a b Rc, k = .cylind w a b Rc ∧ 0 < |Rc| ∧
        2 * Real.arcsin (b / 2 / |Rc|) = N * Real.arcsin (p.dy / |Rc|))
    (v delay xo yo zo : ℝ) (i : ℕ) :
    (k.surf p).response v p.cp delay p.dt xo (-yo) zo i =
      (k.surf p).response v p.cp delay p.dt xo yo zo i := by
  have hf := floor_mul hdy N
  have hc := cell_mirror p.dy N
  have hh : ∀ R, 2 * R = N * p.dy → ∀ q < N, discHalf R p.dy (N - 1 - q) = discHalf R p.dy q := by
    intro R hR q hq
    unfold discHalf
    rw [hR, hc q hq, neg_sq]
  rcases hk with ⟨w, a, rfl⟩ | ⟨met, f, a, rfl⟩ | ⟨w, R, rfl, hR⟩ | ⟨met, f, R, rfl, hR⟩ |
    ⟨R, Rc, rfl, hR⟩ | ⟨a, rfl⟩ | ⟨w, a, b, Rc, rfl, hRc, hθ⟩
  · apply Surf.mirror_y
    · intro q _; rfl
    · intro q hq j hj
      simp only [Kern.surf, rectSurf, hf] at hq ⊢
      exact ⟨trivial, hc q hq, trivial, trivial⟩
  · apply Surf.mirror_y
    · intro q _; rfl
    · intro q hq j hj
      simp only [Kern.surf, Surf.focused, rectSurf, hf] at hq ⊢
      refine ⟨trivial, hc q hq, trivial, ?_⟩
      cases met <;> simp only [hc q hq, focusTime_even, neg_sq]
  · apply Surf.mirror_y
    · intro q hq
      simp only [Kern.surf, discSurf, hR, hf] at hq ⊢
      rw [hh R hR q hq]
    · intro q hq j hj
      simp only [Kern.surf, discSurf, hR, hf] at hq ⊢
      rw [hh R hR q hq]
      exact ⟨rfl, hc q hq, trivial, trivial⟩
  · apply Surf.mirror_y
    · intro q hq
      simp only [Kern.surf, Surf.focused, discSurf, hR, hf] at hq ⊢
      rw [hh R hR q hq]
    · intro q hq j hj
      simp only [Kern.surf, Surf.focused, discSurf, hR, hf] at hq ⊢
      rw [hh R hR q hq]
      refine ⟨rfl, hc q hq, trivial, ?_⟩
      cases met <;> simp only [hc q hq, focusTime_even, neg_sq]
  · apply Surf.mirror_y
    · intro q hq
      simp only [Kern.surf, sphereSurf, discSurf, hR, hf] at hq ⊢
      rw [hh R hR q hq]
    · intro q hq j hj
      simp only [Kern.surf, sphereSurf, discSurf, hR, hf] at hq ⊢
      rw [hh R hR q hq]
      refine ⟨rfl, hc q hq, ?_, trivial⟩
      simp only [hc q hq, neg_sq]
  · apply Surf.mirror_y
    · intro q _; rfl
    · intro q hq j hj
      simp only [Kern.surf, lineSurf] at hq ⊢
      exact ⟨trivial, by ring, trivial, trivial⟩
  · have hdθ : 0 < Real.arcsin (p.dy / |Rc|) := Real.arcsin_pos.mpr (by positivity)
    have hfθ := floor_mul hdθ N
    have hcθ := cell_mirror (Real.arcsin (p.dy / |Rc|)) N
    apply Surf.mirror_y
    · intro q _; rfl
    · intro q hq j hj
      simp only [Kern.surf, cylindSurf, hθ, hfθ] at hq ⊢
      rw [hcθ q hq, Real.sin_neg, Real.cos_neg]
      exact ⟨trivial, by ring, rfl, trivial⟩

/-! ### Mirror symmetry up to the discretisation error -/

theorem focusAt_even_x (met : FocusMet) (f ex ey er cp x y : ℝ) :
    focusAt met f ex ey er cp (-x) y = focusAt met f ex ey er cp x y := by
  cases met <;> simp only [focusAt, focusTime_even, neg_sq]

theorem aper_mirror_x (k : Kern ℝ) (cp dy v delay : ℝ) (φ : ℝ → ℝ) (xo yo zo : ℝ) :
    (k.aper cp dy).rayleigh v cp delay φ (-xo, yo, zo) =
      (k.aper cp dy).rayleigh v cp delay φ (xo, yo, zo) := by
  have hpos : ∀ x s, edist3 (-xo, yo, zo) ((k.aper cp dy).pos x s) =
      edist3 (xo, yo, zo) ((k.aper cp dy).pos (-x) s) := by
    intro x s
    unfold edist3
    cases k <;> simp only [Kern.aper, neg_sq] <;> congr 1 <;> ring
  have hfoc : ∀ x s, (k.aper cp dy).foc (-x) s = (k.aper cp dy).foc x s := by
    intro x s
    cases k <;> simp only [Kern.aper, focusAt_even_x]
  unfold Aper.rayleigh
  congr 1
  funext s
  have := intervalIntegral.integral_comp_neg (a := -(k.aper cp dy).half s) (b := (k.aper cp dy).half s)
    (fun x => v / (2 * Real.pi * edist3 (xo, yo, zo) ((k.aper cp dy).pos x s)) *
      φ (edist3 (xo, yo, zo) ((k.aper cp dy).pos x s) * 1000 / cp - (delay - (k.aper cp dy).foc x s)))
  rw [neg_neg] at this
  rw [← this]
  congr 1
  funext x
  rw [hpos, hfoc]

/-- C81, mirror symmetry up to twice the discretisation error, for every transducer. -/
theorem C81_mirror_error (k : Kern ℝ) (p : Par ℝ) (hk : k.Aperture) (hdx : 0 < p.dx) (hdy : 0 < p.dy)
    (hdt : 0 < p.dt) (hcp : 0 < p.cp) (v delay xo yo zo : ℝ) (nt : ℕ) {φ : ℝ → ℝ} {K L : ℝ}
    (hφ : Tame φ K L)
    (ht : (k.aper p.cp p.dy).Within p.cp delay (xo, yo, zo) 0 (((nt : ℝ) - 1 / 2) * p.dt))
    (z : ℝ) (hz : 0 < z) (haway : (k.aper p.cp p.dy).Away z (xo, yo, zo)) :
    |weigh nt p.dt φ ((k.surf p).response v p.cp delay p.dt (-xo) yo zo) -
      weigh nt p.dt φ ((k.surf p).response v p.cp delay p.dt xo yo zo)| ≤
      2 * k.convErr v p.cp K L z p.dt p.dx p.dy := by
  have hpos : ∀ x s, edist3 (-xo, yo, zo) ((k.aper p.cp p.dy).pos x s) =
      edist3 (xo, yo, zo) ((k.aper p.cp p.dy).pos (-x) s) := by
    intro x s
    unfold edist3
    cases k <;> simp only [Kern.aper, neg_sq] <;> congr 1 <;> ring
  have hfoc : ∀ x s, (k.aper p.cp p.dy).foc (-x) s = (k.aper p.cp p.dy).foc x s := by
    intro x s
    cases k <;> simp only [Kern.aper, focusAt_even_x]
  have h1 := C80_error k p hk hdx hdy hdt hcp v delay xo yo zo nt hφ ht z hz haway
  have h2 := C80_error k p hk hdx hdy hdt hcp v delay (-xo) yo zo nt hφ (by
      intro x s a1 a2 a3
      have := ht (-x) s a1 a2 (by rwa [abs_neg])
      unfold Aper.time at this ⊢
      rw [hpos, ← hfoc x]
      exact this) z hz (by
      intro x s a1 a2 a3
      rw [hpos]
      exact haway (-x) s a1 a2 (by rwa [abs_neg]))
  rw [aper_mirror_x] at h2
  have := abs_le.mp h1; have := abs_le.mp h2
  exact abs_le.mpr ⟨by linarith, by linarith⟩

theorem focusAt_even_y (met : FocusMet) (f ex ey er cp x y : ℝ) :
    focusAt met f ex ey er cp x (-y) = focusAt met f ex ey er cp x y := by
  cases met <;> simp only [focusAt, focusTime_even, neg_sq]

theorem aper_even (k : Kern ℝ) (cp dy xo yo zo : ℝ) :
    (∀ x s, edist3 (xo, -yo, zo) ((k.aper cp dy).pos x s) =
      edist3 (xo, yo, zo) ((k.aper cp dy).pos x (-s))) ∧
    (∀ x s, (k.aper cp dy).foc x (-s) = (k.aper cp dy).foc x s) ∧
    (∀ s, (k.aper cp dy).half (-s) = (k.aper cp dy).half s) ∧
    (k.aper cp dy).lo = -(k.aper cp dy).hi := by
  refine ⟨fun x s => ?_, fun x s => ?_, fun s => ?_, ?_⟩
  · unfold edist3
    cases k <;> simp only [Kern.aper, neg_sq, neg_div, Real.sin_neg, Real.cos_neg] <;> congr 1 <;> ring
  · cases k <;> simp only [Kern.aper, focusAt_even_y]
  · cases k <;> simp only [Kern.aper, neg_sq]
  · cases k <;> simp only [Kern.aper]

theorem aper_mirror_y (k : Kern ℝ) (cp dy v delay : ℝ) (φ : ℝ → ℝ) (xo yo zo : ℝ) :
    (k.aper cp dy).rayleigh v cp delay φ (xo, -yo, zo) =
      (k.aper cp dy).rayleigh v cp delay φ (xo, yo, zo) := by
  obtain ⟨hpos, hfoc, hhalf, hlo⟩ := aper_even k cp dy xo yo zo
  unfold Aper.rayleigh
  rw [hlo]
  have := intervalIntegral.integral_comp_neg (a := -(k.aper cp dy).hi) (b := (k.aper cp dy).hi)
    (fun s => ∫ x in (-(k.aper cp dy).half s)..((k.aper cp dy).half s),
      v / (2 * Real.pi * edist3 (xo, yo, zo) ((k.aper cp dy).pos x s)) *
      φ (edist3 (xo, yo, zo) ((k.aper cp dy).pos x s) * 1000 / cp - (delay - (k.aper cp dy).foc x s)))
  rw [neg_neg] at this
  rw [← this]
  congr 1
  funext s
  simp only [hhalf, hpos, hfoc]

/-- C81, mirror in `y` up to twice the discretisation error, for every transducer. -/
theorem C81_mirror_error_y (k : Kern ℝ) (p : Par ℝ) (hk : k.Aperture) (hdx : 0 < p.dx)
    (hdy : 0 < p.dy) (hdt : 0 < p.dt) (hcp : 0 < p.cp) (v delay xo yo zo : ℝ) (nt : ℕ) {φ : ℝ → ℝ}
    {K L : ℝ} (hφ : Tame φ K L)
    (ht : (k.aper p.cp p.dy).Within p.cp delay (xo, yo, zo) 0 (((nt : ℝ) - 1 / 2) * p.dt))
    (z : ℝ) (hz : 0 < z) (haway : (k.aper p.cp p.dy).Away z (xo, yo, zo)) :
    |weigh nt p.dt φ ((k.surf p).response v p.cp delay p.dt xo (-yo) zo) -
      weigh nt p.dt φ ((k.surf p).response v p.cp delay p.dt xo yo zo)| ≤
      2 * k.convErr v p.cp K L z p.dt p.dx p.dy := by
  obtain ⟨hpos, hfoc, hhalf, hlo⟩ := aper_even k p.cp p.dy xo yo zo
  have h1 := C80_error k p hk hdx hdy hdt hcp v delay xo yo zo nt hφ ht z hz haway
  have h2 := C80_error k p hk hdx hdy hdt hcp v delay xo (-yo) zo nt hφ (by
      intro x s a1 a2 a3
      have := ht x (-s) (by linarith) (by linarith) (by rwa [hhalf])
      unfold Aper.time at this ⊢
      rw [hpos, ← hfoc x s]
      exact this) z hz (by
      intro x s a1 a2 a3
      rw [hpos]
      exact haway x (-s) (by linarith) (by linarith) (by rwa [hhalf]))
  rw [aper_mirror_y] at h2
  have := abs_le.mp h1; have := abs_le.mp h2
  exact abs_le.mpr ⟨by linarith, by linarith⟩

/-! ### Violation -/

theorem sqrt34_bounds : 0.866 < Real.sqrt (3 / 4) ∧ Real.sqrt (3 / 4) < 0.8661 := by
  constructor
  · exact Real.lt_sqrt_of_sq_lt (by norm_num)
  · rw [Real.sqrt_lt' (by norm_num)]; norm_num

/-- The example: a disc of radius 1 with cells of 1 by 1. -/
noncomputable def exDisc : Surf := discSurf 1 1 1

theorem exDisc_rows : exDisc.rows = 2 := by
  show ⌊(2 * 1 / 1 + 1 / 2 : ℝ)⌋₊ = 2
  rw [Nat.floor_eq_iff (by norm_num)]; norm_num

theorem exDisc_half (q : ℕ) (hq : q < 2) : discHalf 1 1 q = Real.sqrt (3 / 4) := by
  unfold discHalf cell
  congr 1
  have : q = 0 ∨ q = 1 := by omega
  rcases this with rfl | rfl <;> norm_num

theorem exDisc_cols (q : ℕ) (hq : q < 2) : exDisc.cols q = 2 := by
  show ⌊(2 * discHalf 1 1 q / 1 + 1 / 2 : ℝ)⌋₊ = 2
  obtain ⟨h1, h2⟩ := sqrt34_bounds
  rw [exDisc_half q hq, Nat.floor_eq_iff (by positivity)]
  push_cast
  constructor <;> linarith

/-- Squared distance of the cells from the point `(xo, 0, 1)`. -/
theorem exDisc_dist (xo : ℝ) (q j : ℕ) (hq : q < 2) :
    exDisc.dist xo 0 1 q j = Real.sqrt ((xo + Real.sqrt (3 / 4) - 1 / 2 - j) ^ 2 + 5 / 4) := by
  unfold Surf.dist
  congr 1
  show (xo - cell (2 * discHalf 1 1 q) 1 j) ^ 2 + (0 - cell (2 * 1) 1 q) ^ 2 + (1 - 0) ^ 2 = _
  rw [exDisc_half q hq]
  unfold cell
  have : q = 0 ∨ q = 1 := by omega
  rcases this with rfl | rfl
  · push_cast; ring
  · push_cast; ring

theorem rintR_eq {x : ℝ} {k : ℤ} (h1 : (k : ℝ) - 1 / 2 < x) (h2 : x < k + 1 / 2) : rintR x = k := by
  have h := abs_le.mp (rintR_near x)
  have a1 : (rintR x : ℝ) < k + 1 := by linarith
  have a2 : (k : ℝ) < rintR x + 1 := by linarith
  have b1 : rintR x < k + 1 := by exact_mod_cast a1
  have b2 : k < rintR x + 1 := by exact_mod_cast a2
  omega

/-- C81 fails for the disc: although its diameter is a whole number of cells in both directions, the
responses at the points (1, 0, 1) and (-1, 0, 1) differ (the rows are filled from the left). -/
theorem C81_disc_violated :
    ((Kern.circ 1 1).surf { dx := 1, dy := 1, dt := 1 / 4, delay := 0, v := 1, cp := 1000 }).response
      1 1000 0 (1 / 4) (-1) 0 1 8 ≠
    ((Kern.circ 1 1).surf { dx := 1, dy := 1, dt := 1 / 4, delay := 0, v := 1, cp := 1000 }).response
      1 1000 0 (1 / 4) 1 0 1 8 := by
  show exDisc.response 1 1000 0 (1 / 4) (-1) 0 1 8 ≠ exDisc.response 1 1000 0 (1 / 4) 1 0 1 8
  obtain ⟨h1, h2⟩ := sqrt34_bounds
  have hπ := Real.pi_pos
  have hsamp : ∀ xo q j, q < 2 → exDisc.arrives 1000 0 (1 / 4) xo 0 1 q j =
      rintR (4 * Real.sqrt ((xo + Real.sqrt (3 / 4) - 1 / 2 - j) ^ 2 + 5 / 4)) := by
    intro xo q j hq
    unfold Surf.arrives arrivalSample
    rw [exDisc_dist xo q j hq, show exDisc.foc q j = 0 from rfl]
    congr 1; ring
  have hne : ∀ (u : ℝ) (k : ℤ) (lo hi : ℝ), 0 < lo → 0 < hi → lo ^ 2 < u → u < hi ^ 2 →
      (k : ℝ) - 1 / 2 ≤ 4 * lo → 4 * hi ≤ k + 1 / 2 → rintR (4 * Real.sqrt u) = k := by
    intro u k lo hi p1 p2 a1 a2 a3 a4
    have b1 := Real.lt_sqrt_of_sq_lt a1
    have b2 : Real.sqrt u < hi := by rwa [Real.sqrt_lt' p2]
    exact rintR_eq (by linarith) (by linarith)
  have hright : exDisc.response 1 1000 0 (1 / 4) 1 0 1 8 = 0 := by
    unfold Surf.response
    rw [exDisc_rows]
    refine Finset.sum_eq_zero fun q hq => ?_
    have hq' := Finset.mem_range.mp hq
    rw [exDisc_cols q hq']
    refine Finset.sum_eq_zero fun j hj => if_neg ?_
    rw [hsamp 1 q j hq']
    have : j = 0 ∨ j = 1 := by have := Finset.mem_range.mp hj; omega
    rcases this with rfl | rfl
    · rw [hne _ 7 1.7 1.8 (by norm_num) (by norm_num) (by push_cast; nlinarith) (by push_cast; nlinarith)
        (by norm_num) (by norm_num)]
      norm_num
    · rw [hne _ 5 1.13 1.2 (by norm_num) (by norm_num) (by push_cast; nlinarith) (by push_cast; nlinarith)
        (by norm_num) (by norm_num)]
      norm_num
  have hleft : 0 < exDisc.response 1 1000 0 (1 / 4) (-1) 0 1 8 := by
    unfold Surf.response
    rw [exDisc_rows]
    have hpos : ∀ q j, q < 2 → 0 < 1 * exDisc.area / (2 * Real.pi * exDisc.dist (-1) 0 1 q j) / (1 / 4) *
        1000 := by
      intro q j hq
      have : 0 < exDisc.dist (-1) 0 1 q j := by
        rw [exDisc_dist _ q j hq]; exact Real.sqrt_pos.mpr (by positivity)
      have : exDisc.area = 1 := by show (1 : ℝ) * 1 = 1; norm_num
      rw [this]; positivity
    refine Finset.sum_pos' (fun q hq => Finset.sum_nonneg fun j hj => ?_) ⟨0, by simp, ?_⟩
    · split
      · exact (hpos q j (Finset.mem_range.mp hq)).le
      · exact le_rfl
    · rw [exDisc_cols 0 (by norm_num)]
      refine Finset.sum_pos' (fun j hj => ?_) ⟨1, by simp, ?_⟩
      · split
        · exact (hpos 0 j (by norm_num)).le
        · exact le_rfl
      · rw [if_pos]
        · exact hpos 0 1 (by norm_num)
        · rw [hsamp (-1) 0 1 (by norm_num), hne _ 8 1.9 2 (by norm_num) (by norm_num)
            (by push_cast; nlinarith) (by push_cast; nlinarith) (by norm_num) (by norm_num)]
          norm_num
  rw [hright]
  exact hleft.ne'

/-! ### The hypotheses are met -/

-- a rectangle of 3 by 2 cells
example (w v xo yo zo : ℝ) (i : ℕ) (p : Par ℝ) (hx : p.dx = 0.5) (hy : p.dy = 0.25) :
    ((Kern.rect w 1.5 0.5).surf p).response v p.cp 0 p.dt (-xo) (-yo) zo i =
      ((Kern.rect w 1.5 0.5).surf p).response v p.cp 0 p.dt xo yo zo i := by
  rw [C81_mirror_x _ p (by rw [hx]; norm_num) 3 (.inl ⟨w, 0.5, by rw [hx]; norm_num⟩),
    C81_mirror_y _ p (by rw [hy]; norm_num) 2 (.inl ⟨w, 1.5, by rw [hy]; norm_num⟩)]

-- the call of the concave cap in metres instead of millimetres, time in milliseconds instead of
-- microseconds
example (nth : ℕ) (h1 : 1 ≤ nth) (as as' : List Act) (hab : Act.abort ∉ as) (hab' : Act.abort ∉ as')
    (s s' : Sys ℝ (KLoc ℝ))
    (hr : ({ exSphere with level := .warn } : SirCall ℝ).Run nth ⟨8, fun _ => 0⟩ as s)
    (hr' : (({ exSphere with level := .warn } : SirCall ℝ).scale 0.001).Run nth ⟨8, fun _ => 0⟩ as' s')
    (i : ℕ) (hi : i < 8) : s'.mem.data (0 * 8 + i) = s.mem.data (0 * 8 + i) := by
  have hobs : ({ exSphere with level := .warn } : SirCall ℝ).obs 0 = (0, 0, 2) := by
    simp [SirCall.obs, exSphere]
  have hdel : ({ exSphere with level := .warn } : SirCall ℝ).delayFor 0 = 0 := by
    simp [SirCall.delayFor, exSphere]
  refine C81_call { exSphere with level := .warn } ⟨8, fun _ => 0⟩ ⟨rfl, rfl, rfl⟩ rfl exSphere_good
    (fun _ _ => rfl) ?_ (.inr (.inl rfl)) 0.001 (by norm_num) nth nth h1 h1 as as' hab hab' s s' hr hr' 0
    (by decide) i hi
  intro n hn q hq j hj
  have : n = 0 := by simp [exSphere] at hn; exact hn
  subst this
  rw [hobs, hdel]
  have := exSphere_arrives q j hq hj
  exact (congrArg _ this).trans (by decide)

end Dream
