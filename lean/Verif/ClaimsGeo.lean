import Verif.ClaimsReal
import Verif.ClaimsThreads
import Verif.Superpos
import Verif.AnnuThms
import Verif.FftConv

/-
C53, C54: in exact arithmetic the response of every single-element transducer is the discretised
Rayleigh integral over its surface, and the focusing transducers focus.
-/

namespace Dream
open Arith Finset

/-! ### Specification: sampled surfaces -/

/-- A surface sampled at points `(q, j)`, `q < rows`, `j < cols q`: positions, area of each cell, and
an extra delay (microseconds) applied to the cell. -/
structure Surf where
  rows : ℕ
  cols : ℕ → ℕ
  x : ℕ → ℕ → ℝ
  y : ℕ → ℕ → ℝ
  z : ℕ → ℕ → ℝ
  area : ℝ
  foc : ℕ → ℕ → ℝ

/-- Distance of a cell to the observation point. -/
noncomputable def Surf.dist (S : Surf) (xo yo zo : ℝ) (q j : ℕ) : ℝ :=
  Real.sqrt ((xo - S.x q j) ^ 2 + (yo - S.y q j) ^ 2 + (zo - S.z q j) ^ 2)

/-- Sample at which the contribution of a cell arrives. -/
noncomputable def Surf.arrives (S : Surf) (cp delay dt xo yo zo : ℝ) (q j : ℕ) : ℤ :=
  arrivalSample (S.dist xo yo zo q j) cp (delay - S.foc q j) dt

/-- Sample `i` of the Rayleigh sum with normal velocity `v`. -/
noncomputable def Surf.response (S : Surf) (v cp delay dt xo yo zo : ℝ) (i : ℕ) : ℝ :=
  ∑ q ∈ range S.rows, ∑ j ∈ range (S.cols q),
    if S.arrives cp delay dt xo yo zo q j = (i : ℤ) then
      v * S.area / (2 * Real.pi * S.dist xo yo zo q j) / dt * 1000
    else 0

/-- Rectangle `a` by `b` in the plane `z = 0`. -/
noncomputable def rectSurf (a b dx dy : ℝ) : Surf where
  rows := ⌊b / dy + 1 / 2⌋₊
  cols := fun _ => ⌊a / dx + 1 / 2⌋₊
  x := fun _ j => cell a dx j
  y := fun q _ => cell b dy q
  z := fun _ _ => 0
  area := dx * dy
  foc := fun _ _ => 0

/-- Half width of row `q` of a disc of radius `R`. -/
noncomputable def discHalf (R dy : ℝ) (q : ℕ) : ℝ := Real.sqrt (R ^ 2 - cell (2 * R) dy q ^ 2)

/-- Disc of radius `R` in the plane `z = 0`. -/
noncomputable def discSurf (R dx dy : ℝ) : Surf where
  rows := ⌊2 * R / dy + 1 / 2⌋₊
  cols := fun q => ⌊2 * discHalf R dy q / dx + 1 / 2⌋₊
  x := fun q j => cell (2 * discHalf R dy q) dx j
  y := fun q _ => cell (2 * R) dy q
  z := fun _ _ => 0
  area := dx * dy
  foc := fun _ _ => 0

/-- Strip of length `a` and width `dy`, sampled along its length. -/
noncomputable def lineSurf (a dx dy : ℝ) : Surf where
  rows := 1
  cols := fun _ => ⌊a / dx + 1 / 2⌋₊
  x := fun _ j => cell a dx j
  y := fun _ _ => 0
  z := fun _ _ => 0
  area := dx * dy
  foc := fun _ _ => 0

/-- Spherical cap over a disc of radius `R`: the sphere of radius `|Rc|` through the origin with
centre `(0, 0, Rc)`. -/
noncomputable def sphereSurf (R Rc dx dy : ℝ) : Surf :=
  { discSurf R dx dy with
    z := fun q j =>
      let s := Real.sqrt (Rc ^ 2 - (discSurf R dx dy).x q j ^ 2 - (discSurf R dx dy).y q j ^ 2)
      if 0 ≤ Rc then Rc - s else Rc + s }

/-- Cylindrical segment of length `a` and chord `b`: the cylinder of radius `|Rc|` whose axis is
`y = 0`, `z = Rc`; rows are equally spaced in the angle. -/
noncomputable def cylindSurf (a b Rc dx dy : ℝ) : Surf where
  rows := ⌊2 * Real.arcsin (b / 2 / |Rc|) / Real.arcsin (dy / |Rc|) + 1 / 2⌋₊
  cols := fun _ => ⌊a / dx + 1 / 2⌋₊
  x := fun _ j => cell a dx j
  y := fun q _ => |Rc| * Real.sin (cell (2 * Real.arcsin (b / 2 / |Rc|)) (Real.arcsin (dy / |Rc|)) q)
  z := fun q _ => Rc - Rc *
    Real.cos (cell (2 * Real.arcsin (b / 2 / |Rc|)) (Real.arcsin (dy / |Rc|)) q)
  area := |Rc| * dx * Real.arcsin (dy / |Rc|)
  foc := fun _ _ => 0

/-- Focusing delay (microseconds): the time by which the path of length `√(e²+f²)` from the edge of the
aperture to the focus is longer than the path from the point at `d`. -/
noncomputable def focusTime (e d f cp : ℝ) : ℝ :=
  (Real.sqrt (e ^ 2 + f ^ 2) - Real.sqrt (d ^ 2 + f ^ 2)) * 1000 / cp

/-- Focusing of a surface; `ex`, `ey`, `er` are the aperture dimensions used for the methods.  Method
`x+y` subtracts both paths, all other method names mean no focusing. -/
noncomputable def Surf.focused (S : Surf) (met : FocusMet) (f ex ey er cp : ℝ) : Surf :=
  { S with
    foc := fun q j => match met with
      | .x => focusTime ex (S.x q j) f cp
      | .y => focusTime ey (S.y q j) f cp
      | .xy => focusTime er (Real.sqrt (S.x q j ^ 2 + S.y q j ^ 2)) f cp
      | .x_y => focusTime er (S.x q j) f cp - Real.sqrt (S.y q j ^ 2 + f ^ 2) * 1000 / cp
      | _ => 0 }

/-- The surface of each transducer.  The focused rectangle uses its full width and height, not half of
them, as aperture dimensions. -/
noncomputable def Kern.surf (k : Kern ℝ) (p : Par ℝ) : Surf :=
  match k with
  | .rect _ a b => rectSurf a b p.dx p.dy
  | .circ _ R => discSurf R p.dx p.dy
  | .cylind _ a b Rc => cylindSurf a b Rc p.dx p.dy
  | .line a => lineSurf a p.dx p.dy
  | .rectF met f a b => (rectSurf a b p.dx p.dy).focused met f a b (Real.sqrt (a ^ 2 + b ^ 2)) p.cp
  | .circF met f R => (discSurf R p.dx p.dy).focused met f R R R p.cp
  | .sphere R Rc => sphereSurf R Rc p.dx p.dy

/-- Apodization weight of the element (1 for transducers that have none). -/
def Kern.wt : Kern ℝ → ℝ
  | .rect w _ _ => w
  | .circ w _ => w
  | .cylind w _ _ _ => w
  | _ => 1

/-- Does the kernel start from zero (otherwise it adds to what the column holds)? -/
def Kern.startsFromZero : Kern ℝ → Prop
  | .rect .. => False
  | .circ .. => False
  | .cylind .. => False
  | _ => True

/-- Geometry the theorem needs: positive steps, and for the cylindrical transducer a chord shorter than
the diameter. -/
def Kern.GoodGeo (k : Kern ℝ) (p : Par ℝ) : Prop :=
  0 < p.dx ∧ 0 < p.dy ∧ ∀ w a b Rc, k = .cylind w a b Rc → 0 ≤ b ∧ b < 2 * |Rc|

/-! ### Proofs -/

/-- The list of the contributions of a surface. -/
noncomputable def Surf.pts (S : Surf) (v cp delay dt xo yo zo : ℝ) : List (Pt ℝ) :=
  (List.range S.rows).flatMap fun q => (List.range (S.cols q)).map fun j =>
    { r := S.dist xo yo zo q j
      ai := v * S.area / (2 * Real.pi * S.dist xo yo zo q j) / dt * 1000
      arg := (S.dist xo yo zo q j * 1000 / cp - (delay - S.foc q j)) / dt }

/-- Fuel that is enough for a surface. -/
def Surf.fuel (S : Surf) : ℕ := S.rows + (∑ q ∈ range S.rows, S.cols q) + 1

theorem Surf.fuel_rows (S : Surf) {fuel : ℕ} (h : S.fuel ≤ fuel) : S.rows < fuel := by
  unfold Surf.fuel at h; omega

theorem Surf.fuel_cols (S : Surf) {fuel : ℕ} (h : S.fuel ≤ fuel) (q : ℕ) (hq : q < S.rows) :
    S.cols q < fuel := by
  have := Finset.single_le_sum (f := S.cols) (fun _ _ => Nat.zero_le _) (Finset.mem_range.mpr hq)
  unfold Surf.fuel at h; omega

/-- A sweep with positive steps samples the surface `S` if its rows do. -/
theorem Sweep.points_surf (g : Sweep ℝ) (S : Surf) (v cp delay dt xo yo zo : ℝ)
    (hdx : 0 < g.dx) (hdy : 0 < g.dy) (hrows : passes g.dy g.ymax g.y0 = S.rows)
    (hcols : ∀ q, q < S.rows → passes g.dx (g.row (g.y0 + (q : ℝ) * g.dy)).xmax
      (g.row (g.y0 + (q : ℝ) * g.dy)).x0 = S.cols q)
    (hpt : ∀ q, q < S.rows → ∀ j, j < S.cols q → (g.row (g.y0 + (q : ℝ) * g.dy)).pt
      ((g.row (g.y0 + (q : ℝ) * g.dy)).x0 + (j : ℝ) * g.dx) =
      { r := S.dist xo yo zo q j
        ai := v * S.area / (2 * Real.pi * S.dist xo yo zo q j) / dt * 1000
        arg := (S.dist xo yo zo q j * 1000 / cp - (delay - S.foc q j)) / dt })
    (fuel : ℕ) (hf : S.fuel ≤ fuel) : g.points fuel = some (S.pts v cp delay dt xo yo zo) := by
  rw [Sweep.points_real g hdx hdy fuel (by rw [hrows]; exact S.fuel_rows hf)
    (by intro q hq; rw [hrows] at hq; rw [hcols q hq]; exact S.fuel_cols hf q hq), hrows]
  congr 1
  unfold Surf.pts
  simp only [List.flatMap_def]
  congr 1
  refine List.map_congr_left fun q hq => ?_
  rw [hcols q (List.mem_range.mp hq)]
  exact List.map_congr_left fun j hj => hpt q (List.mem_range.mp hq) j (List.mem_range.mp hj)

theorem passes_disc {R d : ℝ} (hd : 0 < d) : passes d R (-R + d / 2) = ⌊2 * R / d + 1 / 2⌋₊ := by
  have := passes_aperture (a := 2 * R) hd
  rw [← this]
  congr 1 <;> ring

theorem cell_disc (R d : ℝ) (q : ℕ) : -R + d / 2 + (q : ℝ) * d = cell (2 * R) d q := by
  unfold cell; ring

theorem sqrt_sq_sum (x y f : ℝ) :
    Real.sqrt (Real.sqrt (x ^ 2 + y ^ 2) ^ 2 + f ^ 2) = Real.sqrt (x * x + y * y + f * f) := by
  rw [Real.sq_sqrt (by positivity)]
  congr 1; ring

theorem rectF_foc (met : FocusMet) (f xs ys ex ey er cp : ℝ) :
    focusDelayRect met f xs ys ex ey er cp = (match met with
      | .x => focusTime ex xs f cp
      | .y => focusTime ey ys f cp
      | .xy => focusTime er (Real.sqrt (xs ^ 2 + ys ^ 2)) f cp
      | .x_y => focusTime er xs f cp - Real.sqrt (ys ^ 2 + f ^ 2) * 1000 / cp
      | _ => 0) := by
  cases met <;> simp only [focusDelayRect, focusTime, sqrt_sq_sum] <;> simp only [r_sub, r_add, r_mul, r_div, r_lit,
    r_sqrt, pow_two] <;> push_cast <;> ring_nf

theorem circF_foc (met : FocusMet) (f xs ys er cp : ℝ) :
    focusDelayCirc met f xs ys er cp = (match met with
      | .x => focusTime er xs f cp
      | .y => focusTime er ys f cp
      | .xy => focusTime er (Real.sqrt (xs ^ 2 + ys ^ 2)) f cp
      | .x_y => focusTime er xs f cp - Real.sqrt (ys ^ 2 + f ^ 2) * 1000 / cp
      | _ => 0) := by
  cases met <;> simp only [focusDelayCirc, focusTime, sqrt_sq_sum] <;> simp only [r_sub, r_add, r_mul, r_div, r_lit,
    r_sqrt, pow_two] <;> push_cast <;> ring_nf


theorem dist3_real (x y z : ℝ) : dist3 x y z = Real.sqrt (x ^ 2 + y ^ 2 + z ^ 2) := by
  simp only [dist3, r_add, r_mul, r_sqrt, pow_two]

theorem amp_real (w ds r dt : ℝ) : amp w ds r dt = w * ds / (2 * Real.pi * r) / dt * 1000 := by
  simp only [amp, r_mul, r_div, r_lit, r_pi]; push_cast; ring

theorem arrival_real (r cp delay dt : ℝ) : arrival r cp delay dt = (r * 1000 / cp - (delay - 0)) / dt := by
  simp only [arrival, r_mul, r_div, r_lit, r_sub]; push_cast; ring

theorem arrivalFoc_real (r cp delay foc dt : ℝ) :
    arrivalFoc r cp delay foc dt = (r * 1000 / cp - (delay - foc)) / dt := by
  simp only [arrivalFoc, r_mul, r_div, r_lit, r_sub, r_add]; push_cast; ring

theorem rect_surf (p : Par ℝ) (w a b xo yo zo : ℝ) (hdx : 0 < p.dx) (hdy : 0 < p.dy) (fuel : ℕ)
    (hf : (rectSurf a b p.dx p.dy).fuel ≤ fuel) : (rectSweep p w xo yo zo a b).points fuel =
      some ((rectSurf a b p.dx p.dy).pts (w * p.v) p.cp p.delay p.dt xo yo zo) := by
  refine Sweep.points_surf _ _ _ _ _ _ _ _ _ hdx hdy ?_ ?_ ?_ fuel hf
  · simp only [rectSweep, r_div, r_neg, r_add, r_lit]; push_cast; exact passes_aperture hdy
  · intro q _
    simp only [rectSweep, r_div, r_neg, r_add, r_lit]; push_cast; exact passes_aperture hdx
  · intro q _ j _
    simp only [rectSweep, r_div, r_neg, r_add, r_lit, r_mul, r_sub, dist3_real, amp_real,
      arrival_real, Surf.dist, rectSurf, cell]
    push_cast
    simp only [sub_zero]

theorem circ_surf (p : Par ℝ) (w R xo yo zo : ℝ) (hdx : 0 < p.dx) (hdy : 0 < p.dy) (fuel : ℕ)
    (hf : (discSurf R p.dx p.dy).fuel ≤ fuel) : (circSweep p w xo yo zo R).points fuel =
      some ((discSurf R p.dx p.dy).pts (w * p.v) p.cp p.delay p.dt xo yo zo) := by
  have hh : ∀ q : ℕ, Real.sqrt (R * R - (-R + p.dy / 2 + (q : ℝ) * p.dy) *
      (-R + p.dy / 2 + (q : ℝ) * p.dy)) = discHalf R p.dy q := by
    intro q; unfold discHalf; rw [cell_disc]; simp only [pow_two]
  refine Sweep.points_surf _ _ _ _ _ _ _ _ _ hdx hdy ?_ ?_ ?_ fuel hf
  · simp only [circSweep, r_div, r_neg, r_add, r_lit]; push_cast; exact passes_disc hdy
  · intro q _
    simp only [circSweep, r_div, r_neg, r_add, r_lit, r_sqrt, r_sub, r_mul]; push_cast
    rw [hh]; exact passes_disc hdx
  · intro q _ j _
    simp only [circSweep, r_div, r_neg, r_add, r_lit, r_mul, r_sub, r_sqrt, dist3_real, amp_real,
      arrival_real, Surf.dist, discSurf]
    push_cast
    rw [hh, cell_disc, cell_disc]
    simp only [sub_zero]

theorem line_surf (p : Par ℝ) (a xo yo zo : ℝ) (hdx : 0 < p.dx) (fuel : ℕ)
    (hf : (lineSurf a p.dx p.dy).fuel ≤ fuel) : (lineRow p xo yo zo a).points p.dx fuel =
      some ((lineSurf a p.dx p.dy).pts p.v p.cp p.delay p.dt xo yo zo) := by
  have e : passes p.dx (lineRow p xo yo zo a).xmax (lineRow p xo yo zo a).x0 =
      ⌊a / p.dx + 1 / 2⌋₊ := by
    simp only [lineRow, r_div, r_neg, r_add, r_lit]; push_cast; exact passes_aperture hdx
  rw [Row.points_real _ hdx fuel (by
    rw [e]; exact (lineSurf a p.dx p.dy).fuel_cols hf 0 (by simp [lineSurf])), e]
  unfold Surf.pts
  simp only [lineSurf, List.range_one, List.flatMap_cons, List.flatMap_nil, List.append_nil]
  congr 1
  refine List.map_congr_left fun j _ => ?_
  simp only [lineRow, r_div, r_neg, r_add, r_lit, r_mul, r_sub, dist3_real, amp_real,
    arrival_real, Surf.dist, cell]
  push_cast
  simp only [sub_zero]

theorem rectF_surf (p : Par ℝ) (met : FocusMet) (f a b xo yo zo : ℝ) (hdx : 0 < p.dx) (hdy : 0 < p.dy)
    (fuel : ℕ) (hf : (rectSurf a b p.dx p.dy).fuel ≤ fuel) :
    (rectFSweep p met f xo yo zo a b).points fuel =
      some (((rectSurf a b p.dx p.dy).focused met f a b (Real.sqrt (a ^ 2 + b ^ 2)) p.cp).pts p.v p.cp
        p.delay p.dt xo yo zo) := by
  refine Sweep.points_surf _ _ _ _ _ _ _ _ _ hdx hdy ?_ ?_ ?_ fuel hf
  · simp only [rectFSweep, r_div, r_neg, r_add, r_lit]; push_cast; exact passes_aperture hdy
  · intro q _
    simp only [rectFSweep, r_div, r_neg, r_add, r_lit]; push_cast; exact passes_aperture hdx
  · intro q _ j _
    simp only [rectFSweep, r_div, r_neg, r_add, r_lit, r_mul, r_sub, r_sqrt, dist3_real, amp_real,
      arrivalFoc_real, rectF_foc, Surf.dist, Surf.focused, rectSurf, cell]
    push_cast
    simp only [sub_zero, pow_two]

theorem circF_surf (p : Par ℝ) (met : FocusMet) (f R xo yo zo : ℝ) (hdx : 0 < p.dx) (hdy : 0 < p.dy)
    (fuel : ℕ) (hf : (discSurf R p.dx p.dy).fuel ≤ fuel) :
    (circFSweep p met f xo yo zo R).points fuel =
      some (((discSurf R p.dx p.dy).focused met f R R R p.cp).pts p.v p.cp p.delay p.dt xo yo zo) := by
  have hh : ∀ q : ℕ, Real.sqrt (R * R - (-R + p.dy / 2 + (q : ℝ) * p.dy) *
      (-R + p.dy / 2 + (q : ℝ) * p.dy)) = discHalf R p.dy q := by
    intro q; unfold discHalf; rw [cell_disc]; simp only [pow_two]
  refine Sweep.points_surf _ _ _ _ _ _ _ _ _ hdx hdy ?_ ?_ ?_ fuel hf
  · simp only [circFSweep, r_div, r_neg, r_add, r_lit]; push_cast; exact passes_disc hdy
  · intro q _
    simp only [circFSweep, r_div, r_neg, r_add, r_lit, r_sqrt, r_sub, r_mul]; push_cast
    rw [hh]; exact passes_disc hdx
  · intro q _ j _
    simp only [circFSweep, r_div, r_neg, r_add, r_lit, r_mul, r_sub, r_sqrt, dist3_real, amp_real,
      arrivalFoc_real, circF_foc, Surf.dist, Surf.focused, discSurf]
    push_cast
    rw [hh, cell_disc, cell_disc]
    simp only [sub_zero]

theorem sphere_surf (p : Par ℝ) (R Rc xo yo zo : ℝ) (hdx : 0 < p.dx) (hdy : 0 < p.dy) (fuel : ℕ)
    (hf : (discSurf R p.dx p.dy).fuel ≤ fuel) : (sphereSweep p xo yo zo R Rc).points fuel =
      some ((sphereSurf R Rc p.dx p.dy).pts p.v p.cp p.delay p.dt xo yo zo) := by
  have hh : ∀ q : ℕ, Real.sqrt (R * R - (-R + p.dy / 2 + (q : ℝ) * p.dy) *
      (-R + p.dy / 2 + (q : ℝ) * p.dy)) = discHalf R p.dy q := by
    intro q; unfold discHalf; rw [cell_disc]; simp only [pow_two]
  refine Sweep.points_surf _ _ _ _ _ _ _ _ _ hdx hdy ?_ ?_ ?_ fuel hf
  · simp only [sphereSweep, r_div, r_neg, r_add, r_lit]; push_cast; exact passes_disc hdy
  · intro q _
    simp only [sphereSweep, r_div, r_neg, r_add, r_lit, r_sqrt, r_sub, r_mul]; push_cast
    rw [hh]; exact passes_disc hdx
  · intro q _ j _
    simp only [sphereSweep, sphereF, sphereD, r_div, r_neg, r_add, r_lit, r_mul, r_sub, r_sqrt, r_le,
      dist3_real, amp_real, arrival_real, Surf.dist, sphereSurf, discSurf]
    push_cast
    rw [hh, cell_disc, cell_disc]
    by_cases hR : 0 ≤ Rc
    · simp only [hR, if_true, pow_two]
    · simp only [hR, if_false, pow_two, neg_mul_neg]
      have : ∀ s, zo + (-Rc - s) = zo - (Rc + s) := fun s => by ring
      simp only [this]

theorem cylind_surf (p : Par ℝ) (w a b Rc xo yo zo : ℝ) (hdx : 0 < p.dx) (hdy : 0 < p.dy)
    (hb : 0 ≤ b) (hbR : b < 2 * |Rc|) (fuel : ℕ) (hf : (cylindSurf a b Rc p.dx p.dy).fuel ≤ fuel) :
    (cylindSweep p w xo yo zo a b Rc).points fuel =
      some ((cylindSurf a b Rc p.dx p.dy).pts (w * p.v) p.cp p.delay p.dt xo yo zo) := by
  have hR : 0 < |Rc| := by linarith
  have hs : b / 2 / |Rc| < 1 := by rw [div_lt_one hR]; linarith
  have hs0 : 0 ≤ b / 2 / |Rc| := by positivity
  have hasin : 0 < Real.arcsin (p.dy / |Rc|) := Real.arcsin_pos.mpr (by positivity)
  have hphi : 2 * Real.arctan (b / 2 / (|Rc| - (|Rc| - Real.sqrt (Rc * Rc - b / 2 * (b / 2))))) =
      2 * Real.arcsin (b / 2 / |Rc|) := by
    rw [Real.arcsin_eq_arctan ⟨by linarith, hs⟩]
    congr 2
    have h1 : Rc * Rc - b / 2 * (b / 2) = |Rc| ^ 2 * (1 - (b / 2 / |Rc|) ^ 2) := by
      rw [← abs_mul_abs_self Rc]; field_simp
    rw [h1, Real.sqrt_mul (by positivity), Real.sqrt_sq hR.le]
    rw [sub_sub_cancel]
    generalize Real.sqrt (1 - (b / 2 / |Rc|) ^ 2) = t
    simp only [div_div, mul_assoc]
  set phi := 2 * Real.arcsin (b / 2 / |Rc|) with hphidef
  set dphi := Real.arcsin (p.dy / |Rc|) with hdphi
  refine Sweep.points_surf _ _ _ _ _ _ _ _ _ hdx ?_ ?_ ?_ ?_ fuel hf
  · simp only [cylindSweep, r_div, r_abs, r_asin]; exact hasin
  · simp only [cylindSweep, r_div, r_neg, r_add, r_lit, r_sqrt, r_sub, r_mul, r_abs, r_asin, r_atan]
    push_cast
    rw [hphi, passes_aperture hasin]
    rfl
  · intro q _
    simp only [cylindSweep, r_div, r_neg, r_add, r_lit]; push_cast; exact passes_aperture hdx
  · intro q hq j _
    simp only [cylindSweep, cylindF, cylindD, r_div, r_neg, r_add, r_lit, r_sqrt, r_sub, r_mul, r_abs,
      r_asin, r_atan, r_sin, r_pi, r_le, dist3_real, arrival_real, Surf.dist, cylindSurf]
    push_cast
    rw [hphi]
    have hθ : -phi / 2 + dphi / 2 + (q : ℝ) * dphi = cell phi dphi q := rfl
    rw [hθ]
    have hq' : (q : ℝ) + 1 ≤ phi / dphi + 1 / 2 := by
      have h1 : q + 1 ≤ ⌊phi / dphi + 1 / 2⌋₊ := hq
      have h2 : 0 ≤ phi / dphi + 1 / 2 := by
        have : 0 ≤ phi := by rw [hphidef]; have := Real.arcsin_nonneg.mpr hs0; linarith
        positivity
      have h3 := (Nat.le_floor_iff h2).mp h1
      push_cast at h3
      exact h3
    have hle : ((q : ℝ) + 1 / 2) * dphi ≤ phi := by
      have h1 : (q : ℝ) + 1 / 2 ≤ phi / dphi := by linarith
      rwa [le_div_iff₀ hasin] at h1
    have hq0 : 0 ≤ (q : ℝ) * dphi := by positivity
    have hpi : phi ≤ Real.pi := by
      have := Real.arcsin_le_pi_div_two (b / 2 / |Rc|); rw [hphidef]; linarith
    have hcos : 0 ≤ Real.cos (cell phi dphi q) := by
      apply Real.cos_nonneg_of_mem_Icc
      unfold cell
      constructor <;> linarith
    have hsq : ∀ A : ℝ, A * A = |Rc| * |Rc| → Real.sqrt (A * A -
        |Rc| * Real.sin (cell phi dphi q) * (|Rc| * Real.sin (cell phi dphi q))) =
        |Rc| * Real.cos (cell phi dphi q) := by
      intro A hA
      rw [hA]
      have h1 : |Rc| * |Rc| - |Rc| * Real.sin (cell phi dphi q) * (|Rc| * Real.sin (cell phi dphi q)) =
          (|Rc| * Real.cos (cell phi dphi q)) ^ 2 := by
        have := Real.sin_sq_add_cos_sq (cell phi dphi q)
        have h2 : Real.cos (cell phi dphi q) ^ 2 = 1 - Real.sin (cell phi dphi q) ^ 2 := by linarith
        rw [mul_pow, h2]; ring
      rw [h1, Real.sqrt_sq (by positivity)]
    rw [hsq Rc (abs_mul_abs_self Rc).symm, hsq |Rc| rfl]
    have hx : -a / 2 + p.dx / 2 + (j : ℝ) * p.dx = cell a p.dx j := rfl
    rw [hx]
    by_cases hc : 0 ≤ Rc
    · have hz : zo - (Rc - |Rc| * Real.cos (cell phi dphi q)) =
          zo - (Rc - Rc * Real.cos (cell phi dphi q)) := by rw [abs_of_nonneg hc]
      rw [if_pos hc, hz]
      simp only [mul_one]
      rfl
    · have hz : zo + (|Rc| - |Rc| * Real.cos (cell phi dphi q)) =
          zo - (Rc - Rc * Real.cos (cell phi dphi q)) := by
        rw [abs_of_neg (not_le.mp hc)]; ring
      rw [if_neg hc, hz]
      simp only [mul_one]
      rfl


/-- The points of every kernel. -/
theorem Kern.points_surf (k : Kern ℝ) (p : Par ℝ) (xo yo zo : ℝ) (hg : k.GoodGeo p) (fuel : ℕ)
    (hf : (k.surf p).fuel ≤ fuel) :
    k.points p xo yo zo fuel = some ((k.surf p).pts (k.wt * p.v) p.cp p.delay p.dt xo yo zo) := by
  obtain ⟨hdx, hdy, hc⟩ := hg
  cases k with
  | rect w a b => exact rect_surf p w a b xo yo zo hdx hdy fuel hf
  | circ w R => exact circ_surf p w R xo yo zo hdx hdy fuel hf
  | cylind w a b Rc =>
    exact cylind_surf p w a b Rc xo yo zo hdx hdy (hc w a b Rc rfl).1 (hc w a b Rc rfl).2 fuel hf
  | line a =>
    rw [show (Kern.line a).wt * p.v = p.v from one_mul _]
    exact line_surf p a xo yo zo hdx fuel hf
  | rectF met f a b =>
    rw [show (Kern.rectF met f a b).wt * p.v = p.v from one_mul _]
    exact rectF_surf p met f a b xo yo zo hdx hdy fuel hf
  | circF met f R =>
    rw [show (Kern.circF met f R).wt * p.v = p.v from one_mul _]
    exact circF_surf p met f R xo yo zo hdx hdy fuel hf
  | sphere R Rc =>
    rw [show (Kern.sphere R Rc).wt * p.v = p.v from one_mul _]
    exact sphere_surf p R Rc xo yo zo hdx hdy fuel hf

open Classical in
/-- C53: the lossless response of every single-element transducer in exact arithmetic.  The conversions
of the arrival indices are assumed defined (`hfit`), and under error level stop all indices in
range. -/
theorem C53_surface (k : Kern ℝ) (nt : ℕ) (ty : IdxTy) (level : ErrorLevel) (p : Par ℝ)
    (xo yo zo : ℝ) (base : ℕ) (m : Buf ℝ) (hb : base + nt ≤ m.size) (hg : k.GoodGeo p)
    (hfit : ∀ q < (k.surf p).rows, ∀ j < (k.surf p).cols q,
      ty.fits ((k.surf p).arrives p.cp p.delay p.dt xo yo zo q j) = true)
    (hl : (level = .ignore ∨ level = .warn ∨ level = .none) ∨
      ∀ q < (k.surf p).rows, ∀ j < (k.surf p).cols q,
        0 ≤ (k.surf p).arrives p.cp p.delay p.dt xo yo zo q j ∧
        (k.surf p).arrives p.cp p.delay p.dt xo yo zo q j < nt)
    (fuel : ℕ) (hf : (k.surf p).fuel ≤ fuel) :
    ∃ m' e, k.serial nt ty level none p xo yo zo fuel base m = .ok (m', e) ∧
      ∀ i, i < nt → m'.data (base + i) = (if k.startsFromZero then 0 else m.data (base + i)) +
        (k.surf p).response (k.wt * p.v) p.cp p.delay p.dt xo yo zo i := by
  obtain ⟨m', e, h1, h2⟩ := kern_samples k nt ty level p xo yo zo fuel base m hb _
    (k.points_surf p xo yo zo hg fuel hf)
    (by
      intro pt hpt
      simp only [Surf.pts, List.mem_flatMap, List.mem_map, List.mem_range] at hpt
      obtain ⟨q, hq, j, hj, rfl⟩ := hpt
      exact ⟨_, rfl, hfit q hq j hj⟩)
    (by
      rcases hl with h | h
      · exact Or.inl h
      · right
        rw [List.all_eq_true]
        intro pt hpt
        simp only [Surf.pts, List.mem_flatMap, List.mem_map, List.mem_range] at hpt
        obtain ⟨q, hq, j, hj, rfl⟩ := hpt
        simp only [Pt.inRange, decide_eq_true_eq]
        exact h q hq j hj)
  refine ⟨m', e, h1, fun i hi => ?_⟩
  rw [h2 i hi]
  have hi0 : k.initial base m i = if k.startsFromZero then 0 else m.data (base + i) := by
    cases k <;> simp [Kern.initial, Kern.clears, Kern.startsFromZero]
  rw [hi0]
  congr 1
  unfold Surf.pts Surf.response
  rw [flatMap_sum]
  rfl


/-- Observation point and delay of a call, as the user passes them: `Ro` is an `No`×3 matrix. -/
def SirCall.obs {F : Type} (D : SirCall F) (n : ℕ) : F × F × F :=
  (D.Ro.data n, D.Ro.data (n + D.No), D.Ro.data (n + 2 * D.No))

def SirCall.delayFor {F : Type} (D : SirCall F) (n : ℕ) : F :=
  D.delay.data (match D.delayType with | .single => 0 | .multiple => n)

theorem SirCall.inputs_eq {F : Type} [Arith F] (D : SirCall F) (m : Buf F) (hs : D.Sized m) (n : ℕ) (hn : n < D.No) :
    D.inputs n = .ok ((D.obs n).1, (D.obs n).2.1, (D.obs n).2.2, D.delayFor n) := by
  have h1 := hs.ro
  have h2 := hs.delay
  unfold SirCall.inputs
  rw [Buf.read_nat _ _ (by omega), Outcome.ok_bind, Buf.read_nat _ _ (by omega), Outcome.ok_bind,
    Buf.read_nat _ _ (by omega), Outcome.ok_bind]
  unfold SirCall.delayFor
  cases hd : D.delayType with
  | single =>
    rw [hd] at h2
    simp only at h2 ⊢
    have := Buf.read_nat D.delay 0 (by omega)
    simp only [Nat.cast_zero] at this
    rw [this, Outcome.ok_bind, Nat.one_mul]; rfl
  | multiple =>
    rw [hd] at h2
    simp only at h2 ⊢
    rw [Buf.read_nat D.delay n (by omega), Outcome.ok_bind, Nat.one_mul]; rfl

/-- C53, the call: every complete run of the threaded driver on a zeroed matrix (no abort; error level
ignore or warn, or all arrivals in range) leaves the Rayleigh sum of each observation point in its
column. -/
theorem C53_output (D : SirCall ℝ) (m : Buf ℝ) (hs : D.Sized m) (hatt : D.att = none)
    (hg : D.k.GoodGeo D.p) (hz : ∀ i, i < m.size → m.data i = 0)
    (hfit : ∀ n < D.No, ∀ q < (D.k.surf D.p).rows, ∀ j < (D.k.surf D.p).cols q,
      D.ty.fits ((D.k.surf D.p).arrives D.p.cp (D.delayFor n) D.p.dt (D.obs n).1 (D.obs n).2.1
        (D.obs n).2.2 q j) = true)
    (hl : (D.level = .ignore ∨ D.level = .warn ∨ D.level = .none) ∨
      ∀ n < D.No, ∀ q < (D.k.surf D.p).rows, ∀ j < (D.k.surf D.p).cols q,
        0 ≤ (D.k.surf D.p).arrives D.p.cp (D.delayFor n) D.p.dt (D.obs n).1 (D.obs n).2.1
          (D.obs n).2.2 q j ∧
        (D.k.surf D.p).arrives D.p.cp (D.delayFor n) D.p.dt (D.obs n).1 (D.obs n).2.1
          (D.obs n).2.2 q j < D.nt)
    (nth : ℕ) (h1 : 1 ≤ nth) (as : List Act) (hab : Act.abort ∉ as) (s' : Sys ℝ (KLoc ℝ))
    (hr : D.Run nth m as s') (n : ℕ) (hn : n < D.No) (i : ℕ) (hi : i < D.nt) :
    s'.mem.data (n * D.nt + i) =
      (D.k.surf D.p).response (D.k.wt * D.p.v) D.p.cp (D.delayFor n) D.p.dt
        (D.obs n).1 (D.obs n).2.1 (D.obs n).2.2 i := by
  have hcol : ∀ n, n < D.No → n * D.nt + D.nt ≤ m.size := by
    intro n hn
    rw [hs.out]
    calc n * D.nt + D.nt = (n + 1) * D.nt := by ring
      _ ≤ D.No * D.nt := Nat.mul_le_mul_right _ hn
  have hsurf : ∀ d, D.k.surf { D.p with delay := d } = D.k.surf D.p := by
    intro d; cases D.k <;> rfl
  have hgood : ∀ d, D.k.GoodGeo { D.p with delay := d } := fun d => hg
  have key : ∀ n, n < D.No → ∃ m' e, D.serialAt n (D.k.surf D.p).fuel m = .ok (m', e) ∧
      ∀ i, i < D.nt → m'.data (n * D.nt + i) =
        (D.k.surf D.p).response (D.k.wt * D.p.v) D.p.cp (D.delayFor n) D.p.dt
          (D.obs n).1 (D.obs n).2.1 (D.obs n).2.2 i := by
    intro n hn
    obtain ⟨m', e, g1, g2⟩ := C53_surface D.k D.nt D.ty D.level { D.p with delay := D.delayFor n }
      (D.obs n).1 (D.obs n).2.1 (D.obs n).2.2 (n * D.nt) m (hcol n hn) (hgood _)
      (by rw [hsurf]; exact hfit n hn)
      (by rw [hsurf]; exact hl.imp id fun h => h n hn) (D.k.surf D.p).fuel (by rw [hsurf])
    refine ⟨m', e, ?_, fun i hi => ?_⟩
    · unfold SirCall.serialAt
      rw [D.inputs_eq m hs n hn, hatt]
      exact g1
    · rw [g2 i hi, hsurf]
      have h0 := hcol n hn
      rw [hz _ (by omega), ite_self, zero_add]
  have hd : D.Defined m := fun n hn => by
    obtain ⟨m', e, g, _⟩ := key n hn
    exact ⟨_, _, g⟩
  have hok : ∀ n, n < D.No → ¬ D.PointErr m n .outOfBounds := by
    rcases hl with h | h
    · exact fun n hn => C03_nonstop_levels hs hd h n hn
    · intro n hn
      -- every arrival is in range, so the kernel returns `none`
      have hps : D.k.points { D.p with delay := D.delayFor n } (D.obs n).1 (D.obs n).2.1
          (D.obs n).2.2 (D.k.surf D.p).fuel = some ((D.k.surf D.p).pts (D.k.wt * D.p.v) D.p.cp
          (D.delayFor n) D.p.dt (D.obs n).1 (D.obs n).2.1 (D.obs n).2.2) := by
        rw [D.k.points_surf { D.p with delay := D.delayFor n } (D.obs n).1 (D.obs n).2.1
          (D.obs n).2.2 (hgood _) (D.k.surf D.p).fuel (by rw [hsurf]), hsurf]
      have hin : ((D.k.surf D.p).pts (D.k.wt * D.p.v) D.p.cp (D.delayFor n) D.p.dt (D.obs n).1
          (D.obs n).2.1 (D.obs n).2.2).all (Pt.inRange D.nt) = true := by
        rw [List.all_eq_true]
        intro pt hpt
        simp only [Surf.pts, List.mem_flatMap, List.mem_map, List.mem_range] at hpt
        obtain ⟨q, hq, j, hj, rfl⟩ := hpt
        simp only [Pt.inRange, decide_eq_true_eq]
        exact h n hn q hq j hj
      have hca : ∀ pt ∈ (D.k.surf D.p).pts (D.k.wt * D.p.v) D.p.cp (D.delayFor n) D.p.dt (D.obs n).1
          (D.obs n).2.1 (D.obs n).2.2, pt.castOk D.ty := by
        intro pt hpt
        simp only [Surf.pts, List.mem_flatMap, List.mem_map, List.mem_range] at hpt
        obtain ⟨q, hq, j, hj, rfl⟩ := hpt
        exact ⟨_, rfl, hfit n hn q hq j hj⟩
      have hnone : ∃ m', D.serialAt n (D.k.surf D.p).fuel m = .ok (m', .none) := by
        unfold SirCall.serialAt
        rw [D.inputs_eq m hs n hn]
        simp only [Outcome.bind]
        by_cases hlv : D.level = .ignore ∨ D.level = .warn ∨ D.level = .none
        · obtain ⟨m', g, _⟩ := C10_ignore_warn D.k D.nt D.ty D.level D.att _ _ _ _ _ (n * D.nt) m
            (hcol n hn) _ hps hca hlv
          rw [hin] at g
          exact ⟨m', g⟩
        · obtain ⟨m', g, _⟩ := C10_stop D.k D.nt D.ty D.level D.att _ _ _ _ _ (n * D.nt) m
            (hcol n hn) _ hps hca (by cases hD : D.level <;> simp_all)
          rw [hin] at g
          exact ⟨m', g⟩
      obtain ⟨m', g⟩ := hnone
      rintro ⟨fuel', m'', g'⟩
      obtain ⟨J, _, _, _, _, _, hJ, _⟩ := Drv.with_job (D := D.drv) (SirCall.faithful hs) hd
      have e1 := (hJ n hn _ _ _ g).2
      have e2 := (hJ n hn _ _ _ g').2
      rw [← e1] at e2
      simp at e2
  obtain ⟨m', e, g1, g2⟩ := key n hn
  rw [C03_columns hs hd nth h1 as hab hok s' hr n hn _ m' e g1 i hi, g2 i hi]


/-- C53, arrays: the lossless response of an array of rectangular, circular or cylindrical elements is
what the column held plus the weighted sum of the Rayleigh sums of the elements, each at its position
and with its focusing and steering delay. -/
theorem C53_array (A : ArrPar ℝ) (hA : A.Sized) (K : ArrKern ℝ) (nt : ℕ) (ty : IdxTy)
    (level : ErrorLevel) (p : Par ℝ) (xo yo zo : ℝ) (base : ℕ) (m : Buf ℝ)
    (hb : base + nt ≤ m.size) (d : Dims ℝ) (hd : maxDimArr A.G A.num = .ok d)
    (hg : (K.kern 1).GoodGeo p) (hl : level = .ignore ∨ level = .warn ∨ level = .none)
    (hfit : ∀ n < A.num, ∀ q < ((K.kern 1).surf p).rows, ∀ j < ((K.kern 1).surf p).cols q,
      ty.fits (((K.kern 1).surf p).arrives p.cp
        (p.delay - (A.element d p.cp n).foc - (A.element d p.cp n).steer) p.dt
        (xo - (A.element d p.cp n).gx) (yo - (A.element d p.cp n).gy) (zo - (A.element d p.cp n).gz)
        q j) = true)
    (fuel : ℕ) (hf : ((K.kern 1).surf p).fuel ≤ fuel) :
    ∃ m' e, arrSerial A K nt ty level none p xo yo zo fuel base m = .ok (m', e) ∧
      ∀ i, i < nt → m'.data (base + i) = m.data (base + i) +
        ∑ n ∈ range A.num, (A.element d p.cp n).weight * ((K.kern 1).surf p).response p.v p.cp
          (p.delay - (A.element d p.cp n).foc - (A.element d p.cp n).steer) p.dt
          (xo - (A.element d p.cp n).gx) (yo - (A.element d p.cp n).gy)
          (zo - (A.element d p.cp n).gz) i := by
  have hsurf : ∀ d, (K.kern 1).surf { p with delay := d } = (K.kern 1).surf p := by
    intro d; cases K <;> rfl
  have hwt : (K.kern 1).wt * p.v = p.v := by cases K <;> exact one_mul _
  have hel : ∀ n, ∃ r : Buf ℝ × SIRError, n < A.num →
      (K.kern 1).serial nt ty level none
        { p with delay := p.delay - (A.element d p.cp n).foc - (A.element d p.cp n).steer }
        (xo - (A.element d p.cp n).gx) (yo - (A.element d p.cp n).gy)
        (zo - (A.element d p.cp n).gz) fuel 0 (zeroBuf nt) = .ok r ∧
      r.2 ≠ .outOfBounds ∧ ∀ i, i < nt → r.1.data i =
        ((K.kern 1).surf p).response p.v p.cp
          (p.delay - (A.element d p.cp n).foc - (A.element d p.cp n).steer) p.dt
          (xo - (A.element d p.cp n).gx) (yo - (A.element d p.cp n).gy)
          (zo - (A.element d p.cp n).gz) i := by
    intro n
    by_cases hn : n < A.num
    · obtain ⟨m', e, h1, h2⟩ := C53_surface (K.kern 1) nt ty level
        { p with delay := p.delay - (A.element d p.cp n).foc - (A.element d p.cp n).steer }
        (xo - (A.element d p.cp n).gx) (yo - (A.element d p.cp n).gy) (zo - (A.element d p.cp n).gz)
        0 (zeroBuf nt) (by simp [zeroBuf]) hg (by rw [hsurf]; exact hfit n hn) (.inl hl) fuel
        (by rw [hsurf]; exact hf)
      refine ⟨(m', e), fun _ => ⟨h1, ?_, fun i hi => ?_⟩⟩
      · have h3 := Kern.serial_err _ _ _ _ _ _ _ _ _ _ _ _ (by simp [zeroBuf]) _ h1
        rcases h3 with h3 | h3
        · rw [h3]; simp
        · rw [h3]; rcases hl with h | h | h <;> rw [h] <;> simp [oobErr]
      · have h4 := h2 i hi
        rw [Nat.zero_add, hsurf] at h4
        rw [h4, show (K.kern 1).wt * _ = p.v from hwt]
        simp [zeroBuf]
    · exact ⟨(m, .none), fun h => absurd h hn⟩
  choose r hr using hel
  obtain ⟨m', h1, h2, _⟩ := C15_superposition A hA K nt ty level none p xo yo zo fuel base m hb d hd
    (fun n => (r n).1) (fun n => (r n).2) (fun n hn => (hr n hn).1) (fun n hn => (hr n hn).2.1)
  refine ⟨m', _, h1, fun i hi => ?_⟩
  rw [h2 i hi]
  have hc : ¬ K.fresh (none : Option (AttResp ℝ)) := by cases K <;> simp [ArrKern.fresh]
  rw [if_neg hc]
  congr 1
  refine Finset.sum_congr rfl fun n hn => ?_
  rw [(hr n (Finset.mem_range.mp hn)).2.2 i hi]

/-- Observation point and delay of an array call, as the user passes them. -/
def ArrCall.obs {F : Type} (D : ArrCall F) (n : ℕ) : F × F × F :=
  (D.Ro.data n, D.Ro.data (n + D.No), D.Ro.data (n + 2 * D.No))

def ArrCall.delayFor {F : Type} (D : ArrCall F) (n : ℕ) : F :=
  D.delay.data (match D.delayType with | .single => 0 | .multiple => n)

theorem ArrCall.inputs_eq {F : Type} [Arith F] (D : ArrCall F) (m : Buf F) (hs : D.Sized m) (n : ℕ) (hn : n < D.No) :
    D.inputs n = .ok ((D.obs n).1, (D.obs n).2.1, (D.obs n).2.2, D.delayFor n) := by
  have h1 := hs.ro
  have h2 := hs.delay
  unfold ArrCall.inputs
  rw [Buf.read_nat _ _ (by omega), Outcome.ok_bind, Buf.read_nat _ _ (by omega), Outcome.ok_bind,
    Buf.read_nat _ _ (by omega), Outcome.ok_bind]
  unfold ArrCall.delayFor
  cases hd : D.delayType with
  | single =>
    rw [hd] at h2
    simp only at h2 ⊢
    have := Buf.read_nat D.delay 0 (by omega)
    simp only [Nat.cast_zero] at this
    rw [this, Outcome.ok_bind, Nat.one_mul]; rfl
  | multiple =>
    rw [hd] at h2
    simp only at h2 ⊢
    rw [Buf.read_nat D.delay n (by omega), Outcome.ok_bind, Nat.one_mul]; rfl

/-- C53, the array call: every complete run of the threaded array driver on a zeroed matrix (no abort;
error level ignore, warn or none) leaves in the column of each observation point the weighted sum of
the Rayleigh sums of the elements. -/
theorem C53_array_output (D : ArrCall ℝ) (m : Buf ℝ) (hs : D.Sized m) (hA : D.A.Sized)
    (hatt : D.att = none) (hg : (D.K.kern 1).GoodGeo D.p) (hz : ∀ i, i < m.size → m.data i = 0)
    (d : Dims ℝ) (hd : maxDimArr D.A.G D.A.num = .ok d)
    (hl : D.level = .ignore ∨ D.level = .warn ∨ D.level = .none)
    (hfit : ∀ n < D.No, ∀ k < D.A.num, ∀ q < ((D.K.kern 1).surf D.p).rows,
      ∀ j < ((D.K.kern 1).surf D.p).cols q,
      D.ty.fits (((D.K.kern 1).surf D.p).arrives D.p.cp
        (D.delayFor n - (D.A.element d D.p.cp k).foc - (D.A.element d D.p.cp k).steer) D.p.dt
        ((D.obs n).1 - (D.A.element d D.p.cp k).gx) ((D.obs n).2.1 - (D.A.element d D.p.cp k).gy)
        ((D.obs n).2.2 - (D.A.element d D.p.cp k).gz) q j) = true)
    (nth : ℕ) (h1 : 1 ≤ nth) (as : List Act) (hab : Act.abort ∉ as) (s' : Sys ℝ (ALoc ℝ))
    (hr : D.drv.Run nth m as s') (n : ℕ) (hn : n < D.No) (i : ℕ) (hi : i < D.nt) :
    s'.mem.data (n * D.nt + i) =
      ∑ k ∈ range D.A.num, (D.A.element d D.p.cp k).weight *
        ((D.K.kern 1).surf D.p).response D.p.v D.p.cp
          (D.delayFor n - (D.A.element d D.p.cp k).foc - (D.A.element d D.p.cp k).steer) D.p.dt
          ((D.obs n).1 - (D.A.element d D.p.cp k).gx) ((D.obs n).2.1 - (D.A.element d D.p.cp k).gy)
          ((D.obs n).2.2 - (D.A.element d D.p.cp k).gz) i := by
  have hcol : ∀ n, n < D.No → n * D.nt + D.nt ≤ m.size := by
    intro n hn
    rw [hs.out]
    calc n * D.nt + D.nt = (n + 1) * D.nt := by ring
      _ ≤ D.No * D.nt := Nat.mul_le_mul_right _ hn
  have hsurf : ∀ d, (D.K.kern 1).surf { D.p with delay := d } = (D.K.kern 1).surf D.p := by
    intro d; cases D.K <;> rfl
  have key : ∀ n, n < D.No → ∃ m' e, D.serialAt n ((D.K.kern 1).surf D.p).fuel m = .ok (m', e) ∧
      ∀ i, i < D.nt → m'.data (n * D.nt + i) =
        ∑ k ∈ range D.A.num, (D.A.element d D.p.cp k).weight *
          ((D.K.kern 1).surf D.p).response D.p.v D.p.cp
            (D.delayFor n - (D.A.element d D.p.cp k).foc - (D.A.element d D.p.cp k).steer) D.p.dt
            ((D.obs n).1 - (D.A.element d D.p.cp k).gx) ((D.obs n).2.1 - (D.A.element d D.p.cp k).gy)
            ((D.obs n).2.2 - (D.A.element d D.p.cp k).gz) i := by
    intro n hn
    obtain ⟨m', e, g1, g2⟩ := C53_array D.A hA D.K D.nt D.ty D.level
      { D.p with delay := D.delayFor n } (D.obs n).1 (D.obs n).2.1 (D.obs n).2.2 (n * D.nt) m
      (hcol n hn) d hd hg hl (by rw [hsurf]; exact hfit n hn) ((D.K.kern 1).surf D.p).fuel
      (by rw [hsurf])
    refine ⟨m', e, ?_, fun i hi => ?_⟩
    · unfold ArrCall.serialAt
      rw [D.inputs_eq m hs n hn, hatt]
      exact g1
    · rw [g2 i hi, hsurf]
      have h0 := hcol n hn
      rw [hz _ (by omega), zero_add]
  have hdef : D.drv.Defined m := fun n hn => by
    obtain ⟨m', e, g, _⟩ := key n hn
    exact ⟨_, _, g⟩
  have hok : ∀ n, n < D.No → ¬ D.drv.PointErr m n .outOfBounds := fun n hn =>
    Drv.nonstop_levels (D := D.drv) (ArrCall.faithful hs) hdef hl n hn
  obtain ⟨m', e, g1, g2⟩ := key n hn
  rw [C03_array_columns hs hdef nth h1 as hab hok s' hr n hn _ m' e g1 i hi, g2 i hi]

/-! ### C54: focusing -/

/-- If all cells arrive at the same sample, the response is a single spike. -/
theorem Surf.spike (S : Surf) (v cp delay dt xo yo zo : ℝ) (k : ℤ)
    (h : ∀ q < S.rows, ∀ j < S.cols q, S.arrives cp delay dt xo yo zo q j = k) (i : ℕ)
    (hi : (i : ℤ) ≠ k) : S.response v cp delay dt xo yo zo i = 0 := by
  unfold Surf.response
  refine Finset.sum_eq_zero fun q hq => Finset.sum_eq_zero fun j hj => ?_
  rw [h q (Finset.mem_range.mp hq) j (Finset.mem_range.mp hj), if_neg (fun e => hi e.symm)]

theorem focus_arrival (e d f cp delay dt : ℝ) :
    arrivalSample (Real.sqrt (d ^ 2 + f ^ 2)) cp (delay - focusTime e d f cp) dt =
      arrivalSample (Real.sqrt (e ^ 2 + f ^ 2)) cp delay dt := by
  unfold arrivalSample focusTime
  congr 2
  ring

/-- C54, focused disc: with method `xy` every surface cell is delayed such that it arrives at the focus
`(0, 0, focal)` at the same sample, that of the path from the rim. -/
theorem C54_circ_focus (p : Par ℝ) (f R : ℝ) (q j : ℕ) :
    ((Kern.circF .xy f R).surf p).arrives p.cp p.delay p.dt 0 0 f q j =
      arrivalSample (Real.sqrt (R ^ 2 + f ^ 2)) p.cp p.delay p.dt := by
  rw [← focus_arrival R (Real.sqrt ((discSurf R p.dx p.dy).x q j ^ 2 + (discSurf R p.dx p.dy).y q j ^ 2))
    f p.cp p.delay p.dt]
  show arrivalSample (Real.sqrt ((0 - _) ^ 2 + (0 - _) ^ 2 + (f - 0) ^ 2)) _ _ _ = _
  rw [Real.sq_sqrt (by positivity), zero_sub, zero_sub, neg_sq, neg_sq, sub_zero]
  rfl

/-- C54, focused rectangle, method `xy`: the same with the path from `(a, b)` (twice as far out as the
corner). -/
theorem C54_rect_focus (p : Par ℝ) (f a b : ℝ) (q j : ℕ) :
    ((Kern.rectF .xy f a b).surf p).arrives p.cp p.delay p.dt 0 0 f q j =
      arrivalSample (Real.sqrt (a ^ 2 + b ^ 2 + f ^ 2)) p.cp p.delay p.dt := by
  have h := focus_arrival (Real.sqrt (a ^ 2 + b ^ 2))
    (Real.sqrt ((rectSurf a b p.dx p.dy).x q j ^ 2 + (rectSurf a b p.dx p.dy).y q j ^ 2))
    f p.cp p.delay p.dt
  rw [Real.sq_sqrt (by positivity), Real.sq_sqrt (by positivity)] at h
  rw [← h]
  show arrivalSample (Real.sqrt ((0 - _) ^ 2 + (0 - _) ^ 2 + (f - 0) ^ 2)) _ _ _ = _
  rw [zero_sub, zero_sub, neg_sq, neg_sq, sub_zero]
  rfl

/-- C54, methods `x` and `y` of the focused rectangle and disc: they focus in one direction.  In the
plane `y` = the row's own `y` every cell of a row arrives at the focal line at the same sample, whatever
its `x`; for method `y` the same with the roles of `x` and `y` exchanged. -/
theorem C54_line_focus (p : Par ℝ) (f a b R : ℝ) (q j : ℕ) :
    ((Kern.rectF .x f a b).surf p).arrives p.cp p.delay p.dt 0 (((Kern.rectF .x f a b).surf p).y q j) f q j =
      arrivalSample (Real.sqrt (a ^ 2 + f ^ 2)) p.cp p.delay p.dt ∧
    ((Kern.rectF .y f a b).surf p).arrives p.cp p.delay p.dt (((Kern.rectF .y f a b).surf p).x q j) 0 f q j =
      arrivalSample (Real.sqrt (b ^ 2 + f ^ 2)) p.cp p.delay p.dt ∧
    ((Kern.circF .x f R).surf p).arrives p.cp p.delay p.dt 0 (((Kern.circF .x f R).surf p).y q j) f q j =
      arrivalSample (Real.sqrt (R ^ 2 + f ^ 2)) p.cp p.delay p.dt ∧
    ((Kern.circF .y f R).surf p).arrives p.cp p.delay p.dt (((Kern.circF .y f R).surf p).x q j) 0 f q j =
      arrivalSample (Real.sqrt (R ^ 2 + f ^ 2)) p.cp p.delay p.dt := by
  have hx : ∀ (S : Surf) (e : ℝ), S.z q j = 0 → arrivalSample (Real.sqrt ((0 - S.x q j) ^ 2 +
      (S.y q j - S.y q j) ^ 2 + (f - S.z q j) ^ 2)) p.cp (p.delay - focusTime e (S.x q j) f p.cp) p.dt =
      arrivalSample (Real.sqrt (e ^ 2 + f ^ 2)) p.cp p.delay p.dt := by
    intro S e hz
    rw [← focus_arrival e (S.x q j) f p.cp p.delay p.dt, hz]
    congr 2; ring
  have hy : ∀ (S : Surf) (e : ℝ), S.z q j = 0 → arrivalSample (Real.sqrt ((S.x q j - S.x q j) ^ 2 +
      (0 - S.y q j) ^ 2 + (f - S.z q j) ^ 2)) p.cp (p.delay - focusTime e (S.y q j) f p.cp) p.dt =
      arrivalSample (Real.sqrt (e ^ 2 + f ^ 2)) p.cp p.delay p.dt := by
    intro S e hz
    rw [← focus_arrival e (S.y q j) f p.cp p.delay p.dt, hz]
    congr 2; ring
  exact ⟨hx (rectSurf a b p.dx p.dy) a rfl, hy (rectSurf a b p.dx p.dy) b rfl,
    hx (discSurf R p.dx p.dy) R rfl, hy (discSurf R p.dx p.dy) R rfl⟩

/-- C54: hence the response at the focus is a single spike: zero in all other samples. -/
theorem C54_circ_spike (p : Par ℝ) (f R v : ℝ) (i : ℕ)
    (hi : (i : ℤ) ≠ arrivalSample (Real.sqrt (R ^ 2 + f ^ 2)) p.cp p.delay p.dt) :
    ((Kern.circF .xy f R).surf p).response v p.cp p.delay p.dt 0 0 f i = 0 :=
  Surf.spike _ _ _ _ _ _ _ _ _ (fun q _ j _ => C54_circ_focus p f R q j) i hi

theorem C54_rect_spike (p : Par ℝ) (f a b v : ℝ) (i : ℕ)
    (hi : (i : ℤ) ≠ arrivalSample (Real.sqrt (a ^ 2 + b ^ 2 + f ^ 2)) p.cp p.delay p.dt) :
    ((Kern.rectF .xy f a b).surf p).response v p.cp p.delay p.dt 0 0 f i = 0 :=
  Surf.spike _ _ _ _ _ _ _ _ _ (fun q _ j _ => C54_rect_focus p f a b q j) i hi

/-- Cells lie inside the aperture. -/
theorem cell_abs_le {a d : ℝ} (hd : 0 < d) (ha : 0 ≤ a) (j : ℕ) (hj : j < ⌊a / d + 1 / 2⌋₊) :
    |cell a d j| ≤ a / 2 := by
  have h1 : j + 1 ≤ ⌊a / d + 1 / 2⌋₊ := hj
  have h2 : 0 ≤ a / d + 1 / 2 := by positivity
  have h3 := (Nat.le_floor_iff h2).mp h1
  push_cast at h3
  have h4 : (j : ℝ) + 1 / 2 ≤ a / d := by linarith
  rw [le_div_iff₀ hd] at h4
  have h5 : 0 ≤ (j : ℝ) * d := by positivity
  unfold cell
  rw [abs_le]
  constructor <;> linarith

/-- Cells of the disc lie inside the circle. -/
theorem disc_inside {R dx dy : ℝ} (hdx : 0 < dx) (hdy : 0 < dy) (hR : 0 ≤ R) (q j : ℕ)
    (hq : q < (discSurf R dx dy).rows) (hj : j < (discSurf R dx dy).cols q) :
    (discSurf R dx dy).x q j ^ 2 + (discSurf R dx dy).y q j ^ 2 ≤ R ^ 2 := by
  have h1 := cell_abs_le hdy (by linarith : 0 ≤ 2 * R) q hq
  have h2 := cell_abs_le hdx (by unfold discHalf; positivity : 0 ≤ 2 * discHalf R dy q) j hj
  have h3 : |cell (2 * R) dy q| ≤ R := by linarith
  have h4 : |cell (2 * discHalf R dy q) dx j| ≤ discHalf R dy q := by linarith
  have h5 : cell (2 * R) dy q ^ 2 ≤ R ^ 2 := sq_le_sq' (abs_le.mp h3).1 (abs_le.mp h3).2
  have h6 : cell (2 * discHalf R dy q) dx j ^ 2 ≤ discHalf R dy q ^ 2 :=
    sq_le_sq' (abs_le.mp h4).1 (abs_le.mp h4).2
  have h7 : discHalf R dy q ^ 2 = R ^ 2 - cell (2 * R) dy q ^ 2 := by
    unfold discHalf; rw [Real.sq_sqrt (by linarith)]
  show cell (2 * discHalf R dy q) dx j ^ 2 + cell (2 * R) dy q ^ 2 ≤ R ^ 2
  linarith

/-- C54, spherical cap with centre of curvature in front (`Rc > 0`, disc radius at most `Rc`): every
cell has distance `Rc` from the centre of curvature. -/
theorem C54_sphere_focus (p : Par ℝ) (R Rc : ℝ) (hdx : 0 < p.dx) (hdy : 0 < p.dy) (hR : 0 ≤ R)
    (hRc : R ≤ Rc) (q j : ℕ) (hq : q < ((Kern.sphere R Rc).surf p).rows)
    (hj : j < ((Kern.sphere R Rc).surf p).cols q) :
    ((Kern.sphere R Rc).surf p).dist 0 0 Rc q j = Rc := by
  have hin := disc_inside hdx hdy hR q j hq hj
  have h0 : 0 ≤ Rc := by linarith
  have hRR : R ^ 2 ≤ Rc ^ 2 := pow_le_pow_left₀ hR hRc 2
  show Real.sqrt ((0 - (discSurf R p.dx p.dy).x q j) ^ 2 + (0 - (discSurf R p.dx p.dy).y q j) ^ 2 +
    (Rc - (if 0 ≤ Rc then Rc - Real.sqrt (Rc ^ 2 - (discSurf R p.dx p.dy).x q j ^ 2 -
      (discSurf R p.dx p.dy).y q j ^ 2) else Rc + Real.sqrt (Rc ^ 2 - (discSurf R p.dx p.dy).x q j ^ 2 -
      (discSurf R p.dx p.dy).y q j ^ 2))) ^ 2) = Rc
  rw [if_pos h0, sub_sub_cancel, Real.sq_sqrt (by linarith)]
  rw [show (0 - (discSurf R p.dx p.dy).x q j) ^ 2 + (0 - (discSurf R p.dx p.dy).y q j) ^ 2 +
    (Rc ^ 2 - (discSurf R p.dx p.dy).x q j ^ 2 - (discSurf R p.dx p.dy).y q j ^ 2) = Rc ^ 2 by ring]
  exact Real.sqrt_sq h0

/-- C54: hence the response of the spherical cap at its centre of curvature is a single spike whose
height is the number of cells times the contribution of one. -/
theorem C54_sphere_spike (p : Par ℝ) (R Rc v : ℝ) (hdx : 0 < p.dx) (hdy : 0 < p.dy) (hR : 0 ≤ R)
    (hRc : R ≤ Rc) (i : ℕ) :
    ((Kern.sphere R Rc).surf p).response v p.cp p.delay p.dt 0 0 Rc i =
      if (i : ℤ) = arrivalSample Rc p.cp p.delay p.dt then
        (∑ q ∈ range ((Kern.sphere R Rc).surf p).rows, (((Kern.sphere R Rc).surf p).cols q : ℝ)) *
          (v * (p.dx * p.dy) / (2 * Real.pi * Rc) / p.dt * 1000)
      else 0 := by
  have ha : ∀ q < ((Kern.sphere R Rc).surf p).rows, ∀ j < ((Kern.sphere R Rc).surf p).cols q,
      ((Kern.sphere R Rc).surf p).arrives p.cp p.delay p.dt 0 0 Rc q j =
        arrivalSample Rc p.cp p.delay p.dt := by
    intro q hq j hj
    unfold Surf.arrives
    rw [C54_sphere_focus p R Rc hdx hdy hR hRc q j hq hj]
    show arrivalSample Rc p.cp (p.delay - 0) p.dt = _
    rw [sub_zero]
  by_cases hi : (i : ℤ) = arrivalSample Rc p.cp p.delay p.dt
  · rw [if_pos hi]
    unfold Surf.response
    rw [Finset.sum_mul]
    refine Finset.sum_congr rfl fun q hq => ?_
    rw [← nsmul_eq_mul, ← Finset.card_range (((Kern.sphere R Rc).surf p).cols q),
      ← Finset.sum_const, Finset.card_range]
    refine Finset.sum_congr rfl fun j hj => ?_
    rw [ha q (Finset.mem_range.mp hq) j (Finset.mem_range.mp hj), if_pos hi.symm,
      C54_sphere_focus p R Rc hdx hdy hR hRc q j (Finset.mem_range.mp hq) (Finset.mem_range.mp hj)]
    rfl
  · rw [if_neg hi]
    exact Surf.spike _ _ _ _ _ _ _ _ _ ha i hi

/-- C54, cylindrical segment with its axis in front (`Rc > 0`): at a point of the axis the distance of a
cell does not depend on its row. -/
theorem C54_cylind_focus (p : Par ℝ) (w a b Rc xo : ℝ) (hRc : 0 < Rc) (q j : ℕ) :
    ((Kern.cylind w a b Rc).surf p).dist xo 0 Rc q j = Real.sqrt ((xo - cell a p.dx j) ^ 2 + Rc ^ 2) := by
  unfold Surf.dist Kern.surf cylindSurf
  simp only
  congr 1
  rw [abs_of_pos hRc]
  have := Real.sin_sq_add_cos_sq (cell (2 * Real.arcsin (b / 2 / Rc)) (Real.arcsin (p.dy / Rc)) q)
  rw [add_assoc]
  congr 1
  calc _ = Rc ^ 2 * (Real.sin (cell (2 * Real.arcsin (b / 2 / Rc)) (Real.arcsin (p.dy / Rc)) q) ^ 2 +
        Real.cos (cell (2 * Real.arcsin (b / 2 / Rc)) (Real.arcsin (p.dy / Rc)) q) ^ 2) := by ring
    _ = Rc ^ 2 := by rw [this, mul_one]

theorem focusTime_nonneg {e d f cp : ℝ} (h : d ^ 2 ≤ e ^ 2) (hcp : 0 ≤ cp) : 0 ≤ focusTime e d f cp := by
  unfold focusTime
  have : Real.sqrt (d ^ 2 + f ^ 2) ≤ Real.sqrt (e ^ 2 + f ^ 2) := Real.sqrt_le_sqrt (by linarith)
  have h2 : 0 ≤ Real.sqrt (e ^ 2 + f ^ 2) - Real.sqrt (d ^ 2 + f ^ 2) := by linarith
  positivity

/-- C54: the focusing delays of the focused disc and rectangle are nonnegative for `x`, `y` and `xy`. -/
theorem C54_delays_nonneg (p : Par ℝ) (f a b R : ℝ) (hdx : 0 < p.dx) (hdy : 0 < p.dy) (hcp : 0 ≤ p.cp)
    (ha : 0 ≤ a) (hb : 0 ≤ b) (hR : 0 ≤ R) (met : FocusMet) (hm : met = .x ∨ met = .y ∨ met = .xy) :
    (∀ q < ((Kern.circF met f R).surf p).rows, ∀ j < ((Kern.circF met f R).surf p).cols q,
      0 ≤ ((Kern.circF met f R).surf p).foc q j) ∧
    ∀ q < ((Kern.rectF met f a b).surf p).rows, ∀ j < ((Kern.rectF met f a b).surf p).cols q,
      0 ≤ ((Kern.rectF met f a b).surf p).foc q j := by
  constructor
  · intro q hq j hj
    have hin := disc_inside hdx hdy hR q j hq hj
    have hx := sq_nonneg ((discSurf R p.dx p.dy).x q j)
    have hy := sq_nonneg ((discSurf R p.dx p.dy).y q j)
    rcases hm with rfl | rfl | rfl
    · exact focusTime_nonneg (by linarith) hcp
    · exact focusTime_nonneg (by linarith) hcp
    · refine focusTime_nonneg ?_ hcp
      rw [Real.sq_sqrt (by positivity)]; exact hin
  · intro q hq j hj
    have h1 : |(rectSurf a b p.dx p.dy).x q j| ≤ a / 2 := cell_abs_le hdx ha j hj
    have h2 : |(rectSurf a b p.dx p.dy).y q j| ≤ b / 2 := cell_abs_le hdy hb q hq
    have h3 : (rectSurf a b p.dx p.dy).x q j ^ 2 ≤ a ^ 2 :=
      sq_le_sq' (by linarith [(abs_le.mp h1).1]) (by linarith [(abs_le.mp h1).2])
    have h4 : (rectSurf a b p.dx p.dy).y q j ^ 2 ≤ b ^ 2 :=
      sq_le_sq' (by linarith [(abs_le.mp h2).1]) (by linarith [(abs_le.mp h2).2])
    rcases hm with rfl | rfl | rfl
    · exact focusTime_nonneg h3 hcp
    · exact focusTime_nonneg h4 hcp
    · refine focusTime_nonneg ?_ hcp
      rw [Real.sq_sqrt (by positivity), Real.sq_sqrt (by positivity)]; linarith

/-- C54, arrays: with focusing `xy` (`x`, `y` for elements on the respective axis) the travel time from
the element's position to the focus plus its focusing delay is the same for all elements. -/
theorem C54_array_focus (f gx gy cp : ℝ) (d : Dims ℝ) :
    Real.sqrt (gx ^ 2 + gy ^ 2 + f ^ 2) * 1000 / cp + focusing .xy f gx gy d cp =
      Real.sqrt (d.rmax ^ 2 + f ^ 2) * 1000 / cp ∧
    Real.sqrt (gx ^ 2 + f ^ 2) * 1000 / cp + focusing .x f gx gy d cp =
      Real.sqrt (d.xmax ^ 2 + f ^ 2) * 1000 / cp ∧
    Real.sqrt (gy ^ 2 + f ^ 2) * 1000 / cp + focusing .y f gx gy d cp =
      Real.sqrt (d.ymax ^ 2 + f ^ 2) * 1000 / cp := by
  simp only [focusing, r_add, r_sub, r_mul, r_div, r_sqrt, r_lit, ← pow_two]
  push_cast
  refine ⟨?_, ?_, ?_⟩ <;> ring

/-! ### Non-vacuity -/

/-- A cap of radius 1 on a sphere of radius 2, one cell, at its centre of curvature: a spike of height
`1000 / (4 pi)` at sample 2. -/
noncomputable def exSphere : SirCall ℝ where
  k := .sphere 1 2
  p := { dx := 1, dy := 2, dt := 1, delay := 0, v := 1, cp := 1000 }
  att := none
  nt := 8
  ty := .signed
  level := .stop
  No := 1
  Ro := ⟨3, fun i => if i = 2 then 2 else 0⟩
  delayType := .single
  delay := ⟨1, fun _ => 0⟩

theorem exSphere_good : exSphere.k.GoodGeo exSphere.p :=
  ⟨by norm_num [exSphere], by norm_num [exSphere], by intro w a b Rc h; simp [exSphere] at h⟩

theorem exSphere_rows : (exSphere.k.surf exSphere.p).rows = 1 := by
  show ⌊(2 * 1 / 2 + 1 / 2 : ℝ)⌋₊ = 1
  rw [Nat.floor_eq_iff (by norm_num)]; norm_num

theorem exSphere_cols : (exSphere.k.surf exSphere.p).cols 0 = 2 := by
  show ⌊(2 * discHalf 1 2 0 / 1 + 1 / 2 : ℝ)⌋₊ = 2
  have : discHalf 1 2 0 = 1 := by unfold discHalf cell; norm_num
  rw [this, Nat.floor_eq_iff (by norm_num)]; norm_num

theorem exSphere_arrives (q j : ℕ) (hq : q < (exSphere.k.surf exSphere.p).rows)
    (hj : j < (exSphere.k.surf exSphere.p).cols q) :
    (exSphere.k.surf exSphere.p).arrives 1000 0 1 0 0 2 q j = 2 := by
  unfold Surf.arrives
  have h := C54_sphere_focus exSphere.p 1 2 exSphere_good.1 exSphere_good.2.1 (by norm_num) (by norm_num)
    q j hq hj
  have h' : (exSphere.k.surf exSphere.p).dist 0 0 2 q j = 2 := h
  rw [h']
  show arrivalSample 2 1000 (0 - 0) 1 = 2
  unfold arrivalSample
  rw [show ((2 * 1000 / 1000 - (0 - 0)) / 1 : ℝ) = ((2 : ℤ) : ℝ) by norm_num]
  exact rintR_intCast 2

-- the hypotheses of C53_output are met, and complete runs exist (C08); sample 2 is not zero
example (nth : ℕ) (h1 : 1 ≤ nth) (as : List Act) (hab : Act.abort ∉ as) (s' : Sys ℝ (KLoc ℝ))
    (hr : exSphere.Run nth ⟨8, fun _ => 0⟩ as s') :
    s'.mem.data 2 = 2 * (1 * (1 * 2) / (2 * Real.pi * 2) / 1 * 1000) ∧ s'.mem.data 3 = 0 := by
  have hobs : exSphere.obs 0 = (0, 0, 2) := by simp [SirCall.obs, exSphere]
  have hdel : exSphere.delayFor 0 = 0 := by simp [SirCall.delayFor, exSphere]
  have key := C53_output exSphere ⟨8, fun _ => 0⟩ ⟨rfl, rfl, rfl⟩ rfl exSphere_good
    (fun _ _ => rfl)
    (by
      intro n hn q hq j hj
      have : n = 0 := by simp [exSphere] at hn; exact hn
      subst this
      rw [hobs, hdel]
      rw [show exSphere.p.cp = 1000 from rfl, show exSphere.p.dt = 1 from rfl,
        exSphere_arrives q j hq hj]
      decide)
    (.inr (by
      intro n hn q hq j hj
      have : n = 0 := by simp [exSphere] at hn; exact hn
      subst this
      rw [hobs, hdel]
      rw [show exSphere.p.cp = 1000 from rfl, show exSphere.p.dt = 1 from rfl,
        exSphere_arrives q j hq hj]
      decide)) nth h1 as hab s' hr 0 (by decide)
  have hsp : ∀ i, (exSphere.k.surf exSphere.p).response (exSphere.k.wt * exSphere.p.v) 1000 0 1 0 0 2 i =
      if (i : ℤ) = 2 then 2 * (1 * (1 * 2) / (2 * Real.pi * 2) / 1 * 1000) else 0 := by
    intro i
    have h := C54_sphere_spike exSphere.p 1 2 (1 * 1) exSphere_good.1 exSphere_good.2.1 (by norm_num)
      (by norm_num) i
    have ha : arrivalSample 2 exSphere.p.cp exSphere.p.delay exSphere.p.dt = 2 := by
      show arrivalSample 2 1000 0 1 = 2
      unfold arrivalSample
      rw [show ((2 * 1000 / 1000 - 0) / 1 : ℝ) = ((2 : ℤ) : ℝ) by norm_num]
      exact rintR_intCast 2
    have hc : (∑ q ∈ range (exSphere.k.surf exSphere.p).rows,
        ((exSphere.k.surf exSphere.p).cols q : ℝ)) = 2 := by
      rw [exSphere_rows, Finset.sum_range_one, exSphere_cols]; norm_num
    rw [ha] at h
    refine h.trans ?_
    rw [show (∑ q ∈ range ((Kern.sphere 1 2).surf exSphere.p).rows,
      (((Kern.sphere 1 2).surf exSphere.p).cols q : ℝ)) = 2 from hc]
    simp [exSphere]
  refine ⟨?_, ?_⟩
  · have := key 2 (by decide)
    rw [hobs, hdel] at this
    have := this.trans (hsp 2)
    simpa [exSphere] using this
  · have := key 3 (by decide)
    rw [hobs, hdel] at this
    have := this.trans (hsp 3)
    simpa [exSphere] using this

-- a cylindrical transducer that meets the geometric hypothesis
example : (Kern.cylind (1 : ℝ) 10 4 (-3)).GoodGeo exSphere.p := by
  refine ⟨exSphere_good.1, exSphere_good.2.1, ?_⟩
  rintro w a b Rc h
  injection h with h1 h2 h3 h4
  subst h3 h4
  rw [abs_neg]
  norm_num

end Dream
