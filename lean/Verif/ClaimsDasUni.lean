import Verif.DasUni
import Verif.ClaimsDasFront

/-
Claims about delay-and-sum imaging on uniform grids: C60, C61.
-/

namespace Dream
open Arith

variable {F : Type} [Arith F]

/-! ### C60: the grid of image points -/

/-- C60: work-item number `b + Ny*(c + Nz*a)` computes the image point number `a` along x, `b` along y
and `c` along z: y runs fastest, then z, then x. -/
theorem C60_point (A : UniGeo F) (Nx Ny Nz : Nat) (hx : A.ix.dev = .ok (Nx : Int))
    (hy : A.iy.dev = .ok (Ny : Int)) (hz : A.iz.dev = .ok (Nz : Int)) (a b c : Nat) (ha : a < Nx)
    (hb : b < Ny) (hc : c < Nz) :
    A.point (b + Ny * (c + Nz * a)) = .ok (A.ix.pos a, A.iy.pos b, A.iz.pos c) := by
  unfold UniGeo.point
  rw [hx, hy, hz]
  simp only [Outcome.bind]
  rw [if_neg (by omega)]
  have d1 : ((b + Ny * (c + Nz * a) : Nat) : Int).tdiv Ny = ((c + Nz * a : Nat) : Int) := by
    rw [← Int.ofNat_tdiv, Nat.add_mul_div_left _ _ (by omega), Nat.div_eq_of_lt hb, Nat.zero_add]
  have d2 : ((c + Nz * a : Nat) : Int).tdiv Nz = (a : Int) := by
    rw [← Int.ofNat_tdiv, Nat.add_mul_div_left _ _ (by omega), Nat.div_eq_of_lt hc, Nat.zero_add]
  have d3 : ((a : Nat) : Int).tdiv Nx = 0 := by
    rw [← Int.ofNat_tdiv, Nat.div_eq_of_lt ha]; rfl
  have e1 : ((b + Ny * (c + Nz * a) : Nat) : Int) - ((c + Nz * a : Nat) : Int) * Ny = b := by
    push_cast; ring
  have e2 : ((c + Nz * a : Nat) : Int) - (a : Int) * Nz = c := by push_cast; ring
  have e3 : (a : Int) - 0 * Nx = a := by ring
  simp only [d1, d2, d3, e1, e2, e3]

/-- C60: every work-item computes exactly one of the image points, and every image point is computed by
exactly one work-item. -/
theorem C60_once (Nx Ny Nz no : Nat) (h : no < Nx * Ny * Nz) :
    ∃ a b c, (a < Nx ∧ b < Ny ∧ c < Nz ∧ no = b + Ny * (c + Nz * a)) ∧
      ∀ a' b' c', b' < Ny → c' < Nz → no = b' + Ny * (c' + Nz * a') → a' = a ∧ b' = b ∧ c' = c := by
  have hy : 0 < Ny := by
    rcases Nat.eq_zero_or_pos Ny with h0 | h0
    · subst h0; simp at h
    · exact h0
  have hz : 0 < Nz := by
    rcases Nat.eq_zero_or_pos Nz with h0 | h0
    · subst h0; simp at h
    · exact h0
  refine ⟨no / Ny / Nz, no % Ny, no / Ny % Nz, ⟨?_, Nat.mod_lt _ hy, Nat.mod_lt _ hz, ?_⟩, ?_⟩
  · rw [Nat.div_div_eq_div_mul]
    refine Nat.div_lt_of_lt_mul ?_
    rw [Nat.mul_comm (Ny * Nz), ← Nat.mul_assoc]
    exact h
  · rw [Nat.mod_add_div, Nat.mod_add_div]
  · intro a' b' c' hb hc he
    have d1 : no / Ny = c' + Nz * a' := by
      rw [he, Nat.add_mul_div_left _ _ hy, Nat.div_eq_of_lt hb, Nat.zero_add]
    refine ⟨?_, ?_, ?_⟩
    · rw [d1, Nat.add_mul_div_left _ _ hz, Nat.div_eq_of_lt hc, Nat.zero_add]
    · rw [he, Nat.add_mul_mod_self_left, Nat.mod_eq_of_lt hb]
    · rw [d1, Nat.add_mul_mod_self_left, Nat.mod_eq_of_lt hc]

/-- C60: the number of positions in exact arithmetic: all `lo + i*step` up to `hi`, including the
first, and `hi` itself when the spacing meets it. -/
theorem C60_count (a : Axis ℝ) (hs : 0 < a.step) (hle : a.lo ≤ a.hi) :
    ∃ n : Nat, trunc a.raw = some (n : Int) ∧ 1 ≤ n ∧
      ∀ i : Nat, a.pos i ≤ a.hi ↔ i < n := by
  have hraw : a.raw = (a.hi - a.lo) / a.step + 1 := by
    simp [Axis.raw]
  have h1 : (1 : ℝ) ≤ a.raw := by
    rw [hraw]
    have : 0 ≤ (a.hi - a.lo) / a.step := div_nonneg (by linarith) hs.le
    linarith
  have ht : trunc a.raw = some ⌊a.raw⌋ := by
    rw [r_trunc]; unfold truncR; rw [if_pos (by linarith)]
  have hf : 1 ≤ ⌊a.raw⌋ := by rw [Int.le_floor]; exact_mod_cast h1
  refine ⟨⌊a.raw⌋.toNat, ?_, by omega, fun i => ?_⟩
  · rw [ht]; congr 1; omega
  · have : (i : ℝ) + 1 ≤ a.raw ↔ i < ⌊a.raw⌋.toNat := by
      rw [Int.lt_toNat, ← Int.add_one_le_iff, Int.le_floor]
      push_cast
      rfl
    rw [← this, hraw]
    simp only [Axis.pos, r_add, r_mul, r_ofInt, Int.cast_natCast, add_le_add_iff_right]
    rw [le_div_iff₀ hs]
    constructor <;> intro h <;> linarith

/-- C60: an interval that runs backwards has no positions. -/
theorem C60_backwards (a : Axis ℝ) (hs : 0 < a.step) (hlt : a.hi < a.lo) :
    ∃ i : Int, trunc a.raw = some i ∧ i ≤ 0 := by
  have hraw : a.raw = (a.hi - a.lo) / a.step + 1 := by simp [Axis.raw]
  have h1 : a.raw < 1 := by
    rw [hraw]
    have : (a.hi - a.lo) / a.step < 0 := div_neg_of_neg_of_pos (by linarith) hs
    linarith
  rw [r_trunc]
  refine ⟨_, rfl, ?_⟩
  unfold truncR
  split
  · have : ⌊a.raw⌋ < 1 := by rw [Int.floor_lt]; exact_mod_cast h1
    omega
  · next h =>
    have : ⌈a.raw⌉ ≤ 0 := by rw [Int.ceil_le]; push_cast; linarith
    exact this

/-- C60: host and device agree on the number of positions. -/
theorem C60_host_device (a : Axis F) (n : Int) (hd : a.dev = .ok n) : a.host .signed = .ok n :=
  castIdx_of_castInt hd

/-! ### C61: the image is that of `das` on the same points -/

/-- The numbers of elements and points that an accepted call works with. -/
structure UniCounts {F : Type} [Arith F] (m : DASType) (A : UniArgs F) (nt nr Nx Ny Nz : ℕ) : Prop where
  tx : A.tx.dev = .ok (nt : Int)
  rx : m ≠ .saft → A.rx.dev = .ok (nr : Int)
  ix : A.ix.dev = .ok (Nx : Int)
  iy : A.iy.dev = .ok (Ny : Int)
  iz : A.iz.dev = .ok (Nz : Int)
  saft : m = .saft ↔ nr = 0
  pos : 1 ≤ nt

/-- The call of the general function `das` that lists what `das_uni` describes by spacings: elements on
the x axis (receive rows of a row-column array: on the y axis), image points on a rectangular grid with
y fastest, then z, then x; one delay; nothing reported. -/
noncomputable def UniArgs.listed (m : DASType) (A : UniArgs ℝ) (nt nr Nx Ny Nz : ℕ) : DasCall ℝ where
  Y := A.Y
  len := A.len
  ty := .signed
  level := .ignore
  dasType := m
  Gt := ⟨3 * nt, fun i => if i < nt then A.tx.lo + i * A.tx.step else 0⟩
  nt := nt
  Gr := ⟨3 * nr, fun i => if m = .rcaColtx ∨ m = .rcaRowtx then
      (if nr ≤ i ∧ i < 2 * nr then A.rx.lo + (i - nr : ℕ) * A.rx.step else 0)
    else if i < nr then A.rx.lo + i * A.rx.step else 0⟩
  nr := nr
  Ro := ⟨3 * (Nx * Ny * Nz), fun i =>
    if i < Nx * Ny * Nz then A.ix.lo + (i / Ny / Nz : ℕ) * A.ix.step
    else if i < 2 * (Nx * Ny * Nz) then A.iy.lo + ((i - Nx * Ny * Nz) % Ny : ℕ) * A.iy.step
    else A.iz.lo + ((i - 2 * (Nx * Ny * Nz)) / Ny % Nz : ℕ) * A.iz.step⟩
  No := Nx * Ny * Nz
  dt := A.dt
  cp := A.cp
  delayType := .single
  delay := ⟨1, fun _ => A.delay⟩

/-- For the row-column methods `das` reads the ends of the stripes off the grids: it is right only for
square arrays (C32), and then they are the last positions. -/
def UniArgs.stripes (m : DASType) (A : UniArgs ℝ) (nt nr : ℕ) : Prop :=
  m = .saft ∨ m = .tfm ∨ (nt = nr ∧ A.tx.pos (nt - 1 : ℕ) = A.tx.hi ∧ A.rx.pos (nr - 1 : ℕ) = A.rx.hi)

section Listed

variable {m : DASType} {A : UniArgs ℝ} {nt nr Nx Ny Nz : ℕ}

theorem UniCounts.point (h : UniCounts m A nt nr Nx Ny Nz) (no : ℕ) (hn : no < Nx * Ny * Nz) :
    A.point no = .ok ((A.listed m nt nr Nx Ny Nz).xo no, (A.listed m nt nr Nx Ny Nz).yo no,
      (A.listed m nt nr Nx Ny Nz).zo no) := by
  obtain ⟨a, b, c, ⟨ha, hb, hc, he⟩, _⟩ := C60_once Nx Ny Nz no hn
  have hp := C60_point A.toUniGeo Nx Ny Nz h.ix h.iy h.iz a b c ha hb hc
  rw [← he] at hp
  rw [hp]
  have d1 : no / Ny = c + Nz * a := by
    rw [he, Nat.add_mul_div_left _ _ (by omega), Nat.div_eq_of_lt hb, Nat.zero_add]
  have hx : (A.listed m nt nr Nx Ny Nz).xo no = A.ix.pos a := by
    simp only [DasCall.xo, UniArgs.listed, if_pos hn, Axis.pos, r_add, r_mul, r_ofInt, Int.cast_natCast]
    rw [d1, Nat.add_mul_div_left _ _ (by omega), Nat.div_eq_of_lt hc, Nat.zero_add]
  have hy : (A.listed m nt nr Nx Ny Nz).yo no = A.iy.pos b := by
    simp only [DasCall.yo, UniArgs.listed, Axis.pos, r_add, r_mul, r_ofInt, Int.cast_natCast]
    rw [if_neg (by omega), if_pos (by omega), Nat.add_sub_cancel, he, Nat.add_mul_mod_self_left,
      Nat.mod_eq_of_lt hb]
  have hz : (A.listed m nt nr Nx Ny Nz).zo no = A.iz.pos c := by
    simp only [DasCall.zo, UniArgs.listed, Axis.pos, r_add, r_mul, r_ofInt, Int.cast_natCast]
    rw [if_neg (by omega), if_neg (by omega), Nat.add_sub_cancel, d1, Nat.add_mul_mod_self_left,
      Nat.mod_eq_of_lt hc]
  rw [hx, hy, hz]

theorem uniScan_eq (fs t : ℝ) (s : ℝ × ℕ) :
    uniScan A fs t s = clScan (A.listed m nt nr Nx Ny Nz).cl fs t s := rfl

theorem UniArgs.listed_method (hs : m = .saft ↔ nr = 0) : (A.listed m nt nr Nx Ny Nz).method = m := by
  unfold DasCall.method
  split
  · next h => exact (hs.2 h).symm
  · rfl

theorem uniTime_elem (xo yo zo ocp p : ℝ) :
    uniTime (p -. xo) yo zo ocp = travel (p - xo) (0 - yo) (0 - zo) ocp := by
  unfold uniTime travel
  simp

theorem uniColGap_edge (yo : ℝ) : uniColGap A yo = edge A.rx.lo A.rx.hi yo := rfl

theorem r_lt_not (a b : ℝ) : lt a b = !(le b a) := by
  rw [Bool.eq_iff_iff, r_lt, Bool.not_eq_true', ← Bool.not_eq_true, r_le, not_le]

theorem uniRowGap_edge (xo : ℝ) : uniRowGap A xo = edge A.tx.lo A.tx.hi xo := by
  unfold uniRowGap
  refine clEdge A.tx.lo A.tx.hi xo ?_ ?_ <;> exact r_lt_not _ _

end Listed

/-! #### The kernels as one loop -/

/-- Double-path time of A-scan `q` for the image point (`xo`, `yo`, `zo`) as the kernels compute it. -/
def uniPath (m : DASType) (A : UniArgs F) (nt nr : ℕ) (xo yo zo : F) (q : ℕ) : F :=
  let ocp := lit 1 /. A.cp
  let dms := A.delay /. lit 1000
  match m with
  | .saft => lit 2 *. (uniTime (A.tx.pos q -. xo) yo zo ocp +. dms)
  | .tfm => (uniTime (A.tx.pos (q / nr : ℕ) -. xo) yo zo ocp +. dms) +.
      uniTime (A.rx.pos (q % nr : ℕ) -. xo) yo zo ocp
  | .rcaColtx => (uniTime (A.tx.pos (q / nr : ℕ) -. xo) (uniColGap A yo) zo ocp +. dms) +.
      uniTime (uniRowGap A xo) (A.rx.pos (q % nr : ℕ) -. yo) zo ocp
  | .rcaRowtx => uniTime (A.tx.pos (q % nt : ℕ) -. xo) (uniColGap A yo) zo ocp +.
      (uniTime (uniRowGap A xo) (A.rx.pos (q / nt : ℕ) -. yo) zo ocp +. dms)

/-- Number of A-scans. -/
def uniScans (m : DASType) (nt nr : ℕ) : ℕ := if m = .saft then nt else nt * nr

theorem uni_flat {m : DASType} {A : UniArgs F} {nt nr Nx Ny Nz : ℕ} (h : UniCounts m A nt nr Nx Ny Nz)
    (no : ℕ) (xo yo zo : F) (hp : A.point no = .ok (xo, yo, zo)) :
    uniItems m A no = (Prog.lift (forO (fun q s => uniScan A (fsKhz A.dt) (uniPath m A nt nr xo yo zo q) s)
      (uniScans m nt nr) 0 (lit 0, 0))).bind fun s => .wr 0 s.1 (.ret ()) := by
  have ht := h.tx
  have hr := h.rx
  have hs := h.saft
  have h1 := h.pos
  unfold uniItems uniScans
  cases m with
  | saft =>
    simp only [if_true, uniSaft, ht, hp, Outcome.bind, Int.toNat_natCast, uniPath]
    rfl
  | tfm =>
    have hr := hr (by simp)
    have hr0 : 1 ≤ nr := by
      rcases Nat.eq_zero_or_pos nr with h0 | h0
      · exact absurd (hs.2 h0) (by simp)
      · exact h0
    simp only [reduceCtorEq, if_false, uniTfm, ht, hr, hp, Outcome.bind, Int.toNat_natCast, uniPath]
    congr 2
    have := forO_nested (fun i j s => uniScan A (fsKhz A.dt)
      ((uniTime (A.tx.pos i -. xo) yo zo (lit 1 /. A.cp) +. A.delay /. lit 1000) +.
      uniTime (A.rx.pos j -. xo) yo zo (lit 1 /. A.cp)) s) nt nr hr0 0 (lit 0, 0)
    rw [Nat.zero_mul] at this
    exact this
  | rcaColtx =>
    have hr := hr (by simp)
    have hr0 : 1 ≤ nr := by
      rcases Nat.eq_zero_or_pos nr with h0 | h0
      · exact absurd (hs.2 h0) (by simp)
      · exact h0
    simp only [reduceCtorEq, if_false, uniColtx, ht, hr, hp, Outcome.bind, Int.toNat_natCast, uniPath]
    congr 2
    have := forO_nested (fun i j s => uniScan A (fsKhz A.dt)
      ((uniTime (A.tx.pos i -. xo) (uniColGap A yo) zo (lit 1 /. A.cp) +. A.delay /. lit 1000) +.
      uniTime (uniRowGap A xo) (A.rx.pos j -. yo) zo (lit 1 /. A.cp)) s) nt nr hr0 0 (lit 0, 0)
    rw [Nat.zero_mul] at this
    exact this
  | rcaRowtx =>
    have hr := hr (by simp)
    simp only [reduceCtorEq, if_false, uniRowtx, ht, hr, hp, Outcome.bind, Int.toNat_natCast, uniPath]
    congr 2
    have := forO_nested (fun i j s => uniScan A (fsKhz A.dt)
      (uniTime (A.tx.pos j -. xo) (uniColGap A yo) zo (lit 1 /. A.cp) +.
      (uniTime (uniRowGap A xo) (A.rx.pos i -. yo) zo (lit 1 /. A.cp) +. A.delay /. lit 1000)) s)
      nr nt h1 0 (lit 0, 0)
    rw [Nat.zero_mul, Nat.mul_comm nr nt] at this
    exact this

/-- A work-item adds up the samples, or a conversion to `int` fails. -/
theorem uni_run {m : DASType} {A : UniArgs F} {nt nr Nx Ny Nz : ℕ} (h : UniCounts m A nt nr Nx Ny Nz)
    (hY : uniScans m nt nr * A.len ≤ A.Y.size)
    (no : ℕ) (xo yo zo : F) (hp : A.point no = .ok (xo, yo, zo)) (c : ℕ → F) :
    ((uniItems m A no).runCol 1 c = .ok ((fun i => if i = 0 then
        DasData.acc ⟨A.Y, A.len, .signed, .ignore⟩
          (idxOf (fsKhz A.dt) (uniPath m A nt nr xo yo zo)) (uniScans m nt nr) else c i), ()) ∧
      ∀ q, q < uniScans m nt nr → castInt (trunc (uniPath m A nt nr xo yo zo q *. fsKhz A.dt)) =
        .ok (idxOf (fsKhz A.dt) (uniPath m A nt nr xo yo zo) q)) ∨
    (uniItems m A no).runCol 1 c = .ub .cast := by
  rw [uni_flat h no xo yo zo hp, Prog.runCol_bind, Prog.runCol_lift]
  have := clFlat (⟨A.Y, A.len, ⟨0, fun _ => lit 0⟩, 0, ⟨0, fun _ => lit 0⟩, 0, ⟨0, fun _ => lit 0⟩, 0,
    A.dt, A.delay, A.cp⟩ : ClDas F) ⟨A.Y, A.len, .signed, .ignore⟩ rfl rfl (fsKhz A.dt)
    (uniPath m A nt nr xo yo zo) (uniScans m nt nr) hY (uniScans m nt nr) 0 (by omega)
  simp only [DasData.acc, Nat.zero_mul, Nat.zero_add] at this
  rcases this with ⟨h1, h2⟩ | h1
  · left
    have h1' : forO (fun q s => uniScan A (fsKhz A.dt) (uniPath m A nt nr xo yo zo q) s)
      (uniScans m nt nr) 0 (lit 0, 0) = _ := h1
    rw [h1']
    simp only [Outcome.map, Outcome.bind, Prog.runCol]
    rw [if_pos (by omega)]
    exact ⟨rfl, fun q hq => h2 q (Nat.zero_le _) hq⟩
  · right
    have h1' : forO (fun q s => uniScan A (fsKhz A.dt) (uniPath m A nt nr xo yo zo q) s)
      (uniScans m nt nr) 0 (lit 0, 0) = _ := h1
    rw [h1']; rfl

/-! #### The image in exact arithmetic -/

/-- Distance between the point (`px`, `py`, 0) and (`x`, `y`, `z`). -/
noncomputable def planeDist (px py x y z : ℝ) : ℝ := Real.sqrt ((px - x) ^ 2 + (py - y) ^ 2 + z ^ 2)

/-- The point of the interval [`lo`, `hi`] nearest to `v`. -/
noncomputable def nearest (lo hi v : ℝ) : ℝ := if v < lo then lo else if hi < v then hi else v

/-- Image value at (`x`, `y`, `z`): a sum over the elements, or over all pairs of elements.  Elements lie
on the x axis; the columns of a row-column array are lines parallel to the y axis, which reach over the
positions of the rows, and the rows lines parallel to the x axis, which reach over those of the
columns; a line is hit at its nearest point. -/
noncomputable def uniPixel (m : DASType) (A : UniArgs ℝ) (nt nr : ℕ) (x y z : ℝ) : ℝ :=
  match m with
  | .saft => ∑ i ∈ Finset.range nt, sampleAt A.Y.data A.len i
      (saftIndex A.dt A.cp A.delay (planeDist (A.tx.pos i) 0 x y z))
  | .tfm => ∑ i ∈ Finset.range nt, ∑ j ∈ Finset.range nr, sampleAt A.Y.data A.len (i * nr + j)
      (tfmIndex A.dt A.cp A.delay (planeDist (A.tx.pos i) 0 x y z) (planeDist (A.rx.pos j) 0 x y z))
  | .rcaColtx => ∑ i ∈ Finset.range nt, ∑ j ∈ Finset.range nr, sampleAt A.Y.data A.len (i * nr + j)
      (tfmIndex A.dt A.cp A.delay
        (planeDist (A.tx.pos i) (nearest A.rx.lo A.rx.hi y) x y z)
        (planeDist (nearest A.tx.lo A.tx.hi x) (A.rx.pos j) x y z))
  | .rcaRowtx => ∑ j ∈ Finset.range nr, ∑ i ∈ Finset.range nt, sampleAt A.Y.data A.len (j * nt + i)
      (tfmIndex A.dt A.cp A.delay
        (planeDist (nearest A.tx.lo A.tx.hi x) (A.rx.pos j) x y z)
        (planeDist (A.tx.pos i) (nearest A.rx.lo A.rx.hi y) x y z))

section Exact

variable {m : DASType} {A : UniArgs ℝ} {nt nr Nx Ny Nz : ℕ}

theorem uniTime_real (gx gy zo cp : ℝ) :
    uniTime gx gy zo (lit 1 /. cp) = Real.sqrt (gx ^ 2 + gy ^ 2 + zo ^ 2) / cp := by
  unfold uniTime
  simp only [r_sqrt, r_add, r_mul, r_div, r_lit]
  rw [← sq, ← sq, ← sq]
  simp [div_eq_mul_inv]

theorem edge_sq (lo hi v : ℝ) :
    (edge lo hi v) ^ 2 = (nearest lo hi v - v) ^ 2 := by
  unfold edge nearest
  simp only [r_le, r_lt, r_sub, r_lit]
  by_cases h1 : v < lo
  · rw [if_neg (by push Not; intro h; linarith), if_pos h1, if_pos h1]
  · by_cases h2 : hi < v
    · rw [if_neg (by push Not; intro h; linarith), if_neg h1, if_neg h1, if_pos h2]
    · rw [if_pos ⟨by linarith, by linarith⟩, if_neg h1, if_neg h2]
      simp

/-- The sum over the A-scans is the specified image value. -/
theorem uniPixel_eq (hr : m ≠ .saft → 1 ≤ nr) (ht : 1 ≤ nt) (x y z : ℝ) :
    DasData.acc ⟨A.Y, A.len, .signed, .ignore⟩ (idxOf (fsKhz A.dt) (uniPath m A nt nr x y z))
      (uniScans m nt nr) = uniPixel m A nt nr x y z := by
  rw [DasData.acc_real]
  have hk : ∀ q, idxOf (fsKhz A.dt) (uniPath m A nt nr x y z) q =
      truncR (uniPath m A nt nr x y z q * (1000 / A.dt)) := by
    intro q
    simp only [idxOf, r_trunc, Option.getD_some, fsKhz, r_mul, r_div, r_lit]
    congr 1
    push_cast
    ring
  simp only [hk]
  unfold uniScans uniPixel
  cases m with
  | saft =>
    rw [if_pos rfl]
    refine Finset.sum_congr rfl fun i _ => ?_
    congr 1
    simp only [uniPath, uniTime_real]
    simp only [saftIndex, planeDist, r_mul, r_add, r_div, r_lit, r_sub, zero_sub, even_two.neg_pow]
    norm_num
  | tfm =>
    rw [if_neg (by simp)]
    refine Eq.trans ?_ (sum_pairs _ nt nr (hr (by simp)))
    refine Finset.sum_congr rfl fun q _ => ?_
    simp only [uniPath, uniTime_real]
    simp only [tfmIndex, planeDist, r_mul, r_add, r_div, r_lit, r_sub, zero_sub, even_two.neg_pow]
    rw [Nat.mul_comm (q / nr) nr, Nat.div_add_mod]
    norm_num
  | rcaColtx =>
    rw [if_neg (by simp)]
    refine Eq.trans ?_ (sum_pairs _ nt nr (hr (by simp)))
    refine Finset.sum_congr rfl fun q _ => ?_
    simp only [uniPath, uniTime_real, uniColGap_edge, uniRowGap_edge, edge_sq]
    simp only [tfmIndex, planeDist, r_mul, r_add, r_div, r_lit, r_sub]
    rw [Nat.mul_comm (q / nr) nr, Nat.div_add_mod]
    norm_num
  | rcaRowtx =>
    rw [if_neg (by simp), Nat.mul_comm nt nr]
    refine Eq.trans ?_ (sum_pairs _ nr nt ht)
    refine Finset.sum_congr rfl fun q _ => ?_
    simp only [uniPath, uniTime_real, uniColGap_edge, uniRowGap_edge, edge_sq]
    simp only [tfmIndex, planeDist, r_mul, r_add, r_div, r_lit, r_sub]
    rw [Nat.mul_comm (q / nt) nt, Nat.div_add_mod]
    congr 2
    push_cast
    ring

/-- C61: the image.  In exact arithmetic, for every method, geometry, data, delay, sampling and sound
speed, with a number of points that is a multiple of 64 and whatever the schedule of the device: if the
launch completes, the entry `b + Ny*(c + Nz*a)` of the image read back is the sum of the samples that
belong to the image point number (`a`, `b`, `c`). -/
theorem C61_image (h : UniCounts m A nt nr Nx Ny Nz) (hY : uniScans m nt nr * A.len ≤ A.Y.size)
    (hNo : Nx * Ny * Nz % 64 = 0) (fresh H : ℕ → ℝ)
    (hl : Launched 1 (Nx * Ny * Nz) (uniItems m A) fresh H) (a b c : ℕ) (ha : a < Nx) (hb : b < Ny)
    (hc : c < Nz) :
    H (b + Ny * (c + Nz * a)) = uniPixel m A nt nr (A.ix.lo + a * A.ix.step) (A.iy.lo + b * A.iy.step)
      (A.iz.lo + c * A.iz.step) := by
  have hpt : ∀ n, n < Nx * Ny * Nz → ∃ x y z, A.point n = .ok (x, y, z) :=
    fun n hn => ⟨_, _, _, h.point n hn⟩
  have hlt : b + Ny * (c + Nz * a) < Nx * Ny * Nz := by
    have e1 : Ny * (c + Nz * a + 1) ≤ Ny * (Nz * Nx) := by
      refine Nat.mul_le_mul_left _ ?_
      have : Nz * (a + 1) ≤ Nz * Nx := Nat.mul_le_mul_left _ ha
      rw [Nat.mul_add] at this
      omega
    have e2 : Ny * (Nz * Nx) = Nx * Ny * Nz := by ring
    rw [Nat.mul_add] at e1
    omega
  obtain ⟨col, hcol, hH⟩ := launched_columns 1 (Nx * Ny * Nz) (uniItems m A) fresh H hNo
    (fun i hi => by
      obtain ⟨x, y, z, hp⟩ := hpt i hi
      unfold itemOut
      rcases uni_run h hY i x y z hp (fun j => fresh (1 * i + j)) with ⟨g, _⟩ | g <;> rw [g] <;> simp)
    hl _ hlt
  have hp := C60_point A.toUniGeo Nx Ny Nz h.ix h.iy h.iz a b c ha hb hc
  unfold itemOut at hcol
  rcases uni_run h hY _ _ _ _ hp (fun j => fresh (1 * (b + Ny * (c + Nz * a)) + j)) with ⟨g, _⟩ | g
  · rw [g] at hcol
    simp only [Outcome.ok.injEq, Prod.mk.injEq] at hcol
    have := hH 0 (by omega)
    rw [← hcol.1] at this
    simp only [Nat.one_mul, Nat.add_zero, if_true] at this
    rw [this, uniPixel_eq _ h.pos]
    · simp [Axis.pos]
    · intro hm
      rcases Nat.eq_zero_or_pos nr with h0 | h0
      · exact absurd (h.saft.2 h0) hm
      · exact h0
  · rw [g] at hcol; simp at hcol

/-- The listed call has the sizes that `das` needs. -/
theorem UniArgs.listed_sized (h : UniCounts m A nt nr Nx Ny Nz)
    (hY : uniScans m nt nr * A.len ≤ A.Y.size) :
    (A.listed m nt nr Nx Ny Nz).Sized ⟨Nx * Ny * Nz, fun _ => 0⟩ := by
  refine ⟨?_, rfl, rfl, rfl, rfl, rfl⟩
  unfold DasCall.scans
  rw [UniArgs.listed_method h.saft]
  exact hY

theorem listed_gt (i : ℕ) (hi : i < nt) : (A.listed m nt nr Nx Ny Nz).Gt.data i = A.tx.pos i ∧
    (A.listed m nt nr Nx Ny Nz).Gt.data (i + nt) = 0 ∧
    (A.listed m nt nr Nx Ny Nz).Gt.data (i + 2 * nt) = 0 := by
  refine ⟨by simp [UniArgs.listed, hi, Axis.pos], ?_, ?_⟩ <;>
    (simp only [UniArgs.listed]; rw [if_neg (by omega)])

theorem listed_gr (hm : ¬ (m = .rcaColtx ∨ m = .rcaRowtx)) (i : ℕ) (hi : i < nr) :
    (A.listed m nt nr Nx Ny Nz).Gr.data i = A.rx.pos i ∧
    (A.listed m nt nr Nx Ny Nz).Gr.data (i + nr) = 0 ∧
    (A.listed m nt nr Nx Ny Nz).Gr.data (i + 2 * nr) = 0 := by
  refine ⟨by simp [UniArgs.listed, hi, Axis.pos, hm], ?_, ?_⟩ <;>
    (simp only [UniArgs.listed]; rw [if_neg hm, if_neg (by omega)])

theorem listed_gr_rca (hm : m = .rcaColtx ∨ m = .rcaRowtx) (i : ℕ) (hi : i < nr) :
    (A.listed m nt nr Nx Ny Nz).Gr.data (i + nr) = A.rx.pos i ∧
    (A.listed m nt nr Nx Ny Nz).Gr.data (i + 2 * nr) = 0 := by
  constructor
  · simp only [UniArgs.listed]
    rw [if_pos hm, if_pos (by omega), Nat.add_sub_cancel]
    simp [Axis.pos]
  · simp only [UniArgs.listed]
    rw [if_pos hm, if_neg (by omega)]

theorem travel_sub_zero (g y z ocp : ℝ) : travel g (0 -. y) (0 -. z) ocp = uniTime g y z ocp := by
  simp only [travel, uniTime, r_sub, r_mul]
  congr 3 <;> ring

theorem travel_z (g e z ocp : ℝ) : travel g e (0 -. z) ocp = uniTime g e z ocp := by
  simp only [travel, uniTime, r_sub, r_mul]
  congr 3; ring

theorem listed_tTime (n i : ℕ) (hi : i < nt) : (A.listed m nt nr Nx Ny Nz).tTime n i =
    uniTime (A.tx.pos i -. (A.listed m nt nr Nx Ny Nz).xo n) ((A.listed m nt nr Nx Ny Nz).yo n)
      ((A.listed m nt nr Nx Ny Nz).zo n) (lit 1 /. A.cp) := by
  obtain ⟨h1, h2, h3⟩ := listed_gt (m := m) (A := A) (nr := nr) (Nx := Nx) (Ny := Ny) (Nz := Nz) i hi
  rw [← travel_sub_zero, ← h1]
  conv_rhs => rw [← h2]
  conv_rhs => arg 3; rw [h2, ← h3]
  rfl

theorem listed_rTime (hm : ¬ (m = .rcaColtx ∨ m = .rcaRowtx)) (n i : ℕ) (hi : i < nr) :
    (A.listed m nt nr Nx Ny Nz).rTime n i =
    uniTime (A.rx.pos i -. (A.listed m nt nr Nx Ny Nz).xo n) ((A.listed m nt nr Nx Ny Nz).yo n)
      ((A.listed m nt nr Nx Ny Nz).zo n) (lit 1 /. A.cp) := by
  obtain ⟨h1, h2, h3⟩ := listed_gr (A := A) (nt := nt) (Nx := Nx) (Ny := Ny) (Nz := Nz) hm i hi
  rw [← travel_sub_zero, ← h1]
  conv_rhs => rw [← h2]
  conv_rhs => arg 3; rw [h2, ← h3]
  rfl

theorem listed_colT (lo hi : ℝ) (n i : ℕ) (hi' : i < nt) :
    (A.listed m nt nr Nx Ny Nz).colT lo hi n i =
    uniTime (A.tx.pos i -. (A.listed m nt nr Nx Ny Nz).xo n) (edge lo hi ((A.listed m nt nr Nx Ny Nz).yo n))
      ((A.listed m nt nr Nx Ny Nz).zo n) (lit 1 /. A.cp) := by
  obtain ⟨h1, _, h3⟩ := listed_gt (m := m) (A := A) (nr := nr) (Nx := Nx) (Ny := Ny) (Nz := Nz) i hi'
  rw [← travel_z, ← h1, ← h3]
  rfl

theorem listed_rowT (hm : m = .rcaColtx ∨ m = .rcaRowtx) (lo hi : ℝ) (n i : ℕ) (hi' : i < nr) :
    (A.listed m nt nr Nx Ny Nz).rowT lo hi n i =
    uniTime (edge lo hi ((A.listed m nt nr Nx Ny Nz).xo n)) (A.rx.pos i -. (A.listed m nt nr Nx Ny Nz).yo n)
      ((A.listed m nt nr Nx Ny Nz).zo n) (lit 1 /. A.cp) := by
  obtain ⟨h1, h3⟩ := listed_gr_rca (A := A) (nt := nt) (Nx := Nx) (Ny := Ny) (Nz := Nz) hm i hi'
  rw [← travel_z, ← h1, ← h3]
  rfl

/-- The times of `das_uni` are those of `das` on the listed points and elements. -/
theorem uniPath_listed (h : UniCounts m A nt nr Nx Ny Nz) (hst : A.stripes m nt nr) (n q : ℕ)
    (hq : q < uniScans m nt nr) :
    uniPath m A nt nr ((A.listed m nt nr Nx Ny Nz).xo n) ((A.listed m nt nr Nx Ny Nz).yo n)
      ((A.listed m nt nr Nx Ny Nz).zo n) q = (A.listed m nt nr Nx Ny Nz).dpTime n q := by
  have h1 := h.pos
  have hr1 : m ≠ .saft → 1 ≤ nr := fun hm => by
    rcases Nat.eq_zero_or_pos nr with h0 | h0
    · exact absurd (h.saft.2 h0) hm
    · exact h0
  have hends : m = .rcaColtx ∨ m = .rcaRowtx →
      (A.listed m nt nr Nx Ny Nz).Gr.data nt = A.rx.lo ∧
      (A.listed m nt nr Nx Ny Nz).Gr.data (2 * nt - 1) = A.rx.hi ∧
      (A.listed m nt nr Nx Ny Nz).Gt.data 0 = A.tx.lo ∧
      (A.listed m nt nr Nx Ny Nz).Gt.data (nr - 1) = A.tx.hi := by
    intro hm
    obtain ⟨e, e1, e2⟩ : nt = nr ∧ A.tx.pos (nt - 1 : ℕ) = A.tx.hi ∧ A.rx.pos (nr - 1 : ℕ) = A.rx.hi := by
      rcases hst with g | g | g
      · rcases hm with hm | hm <;> rw [hm] at g <;> simp at g
      · rcases hm with hm | hm <;> rw [hm] at g <;> simp at g
      · exact g
    subst e
    have a1 := (listed_gr_rca (A := A) (nt := nt) (Nx := Nx) (Ny := Ny) (Nz := Nz) hm 0 h1).1
    have a2 := (listed_gr_rca (A := A) (nt := nt) (nr := nt) (Nx := Nx) (Ny := Ny) (Nz := Nz) hm (nt - 1) (by omega)).1
    have a3 := (listed_gt (m := m) (A := A) (nr := nt) (Nx := Nx) (Ny := Ny) (Nz := Nz) 0 h1).1
    have a4 := (listed_gt (m := m) (A := A) (nt := nt) (nr := nt) (Nx := Nx) (Ny := Ny) (Nz := Nz) (nt - 1) (by omega)).1
    rw [Nat.zero_add] at a1
    rw [show nt - 1 + nt = 2 * nt - 1 by omega] at a2
    rw [a1, a2, a3, a4, e1, e2]
    exact ⟨by simp [Axis.pos], rfl, by simp [Axis.pos], rfl⟩
  have hdl : (A.listed m nt nr Nx Ny Nz).delayAt n = A.delay := rfl
  unfold uniScans at hq
  unfold DasCall.dpTime DasCall.pathTime
  rw [UniArgs.listed_method h.saft, hdl]
  cases m with
  | saft =>
    rw [if_pos rfl] at hq
    simp only [uniPath]
    rw [listed_tTime n q hq]
    rfl
  | tfm =>
    rw [if_neg (by simp)] at hq
    have hr := hr1 (by simp)
    show _ = (DasCall.tTime _ n (q / nr) +. _) +. DasCall.rTime _ n (q % nr)
    simp only [uniPath]
    rw [listed_tTime n _ (Nat.div_lt_of_lt_mul (by rw [Nat.mul_comm]; exact hq)),
      listed_rTime (by simp) n _ (Nat.mod_lt _ hr)]
    rfl
  | rcaColtx =>
    rw [if_neg (by simp)] at hq
    have hr := hr1 (by simp)
    obtain ⟨e1, e2, e3, e4⟩ := hends (.inl rfl)
    show _ = (DasCall.colT _ (DasCall.Gr _ |>.data nt) (DasCall.Gr _ |>.data (2 * nt - 1)) n (q / nr) +. _) +.
      DasCall.rowT _ (DasCall.Gt _ |>.data 0) (DasCall.Gt _ |>.data (nr - 1)) n (q % nr)
    simp only [uniPath]
    rw [e1, e2, e3, e4, listed_colT _ _ n _ (Nat.div_lt_of_lt_mul (by rw [Nat.mul_comm]; exact hq)),
      listed_rowT (.inl rfl) _ _ n _ (Nat.mod_lt _ hr), uniRowGap_edge, uniColGap_edge]
    rfl
  | rcaRowtx =>
    rw [if_neg (by simp)] at hq
    have hr := hr1 (by simp)
    obtain ⟨e1, e2, e3, e4⟩ := hends (.inr rfl)
    show _ = (DasCall.colT _ (DasCall.Gr _ |>.data nt) (DasCall.Gr _ |>.data (2 * nt - 1)) n (q % nt) +. _) +.
      DasCall.rowT _ (DasCall.Gt _ |>.data 0) (DasCall.Gt _ |>.data (nr - 1)) n (q / nt)
    simp only [uniPath]
    rw [e1, e2, e3, e4, listed_colT _ _ n _ (Nat.mod_lt _ h1),
      listed_rowT (.inr rfl) _ _ n _ (Nat.div_lt_of_lt_mul hq), uniRowGap_edge, uniColGap_edge]
    simp only [delayMs, r_add, r_div]
    ring

/-- C61: `das_uni` computes what `das` computes on the same elements and points.  In exact arithmetic,
with a number of points that is a multiple of 64: the image read back after a completed launch is,
point by point, the image of every complete run of the threaded function `das` that is given the
elements and points one by one (and one delay), for the row-column methods if the array is square and
its last positions are the given ends. -/
theorem C61_as_das (h : UniCounts m A nt nr Nx Ny Nz) (hY : uniScans m nt nr * A.len ≤ A.Y.size)
    (hst : A.stripes m nt nr) (hNo : Nx * Ny * Nz % 64 = 0) (fresh H : ℕ → ℝ)
    (hl : Launched 1 (Nx * Ny * Nz) (uniItems m A) fresh H)
    (nth : ℕ) (hth : 1 ≤ nth) (as : List Act) (hab : Act.abort ∉ as) (s' : Sys ℝ (Prog ℝ SIRError))
    (hrun : (A.listed m nt nr Nx Ny Nz).drv.Run nth ⟨Nx * Ny * Nz, fun _ => 0⟩ as s')
    (n : ℕ) (hn : n < Nx * Ny * Nz) : H n = s'.mem.data n := by
  set C := A.listed m nt nr Nx Ny Nz with hC
  have hsz := UniArgs.listed_sized h hY
  have hsc : C.scans = uniScans m nt nr := by
    unfold DasCall.scans uniScans; rw [UniArgs.listed_method h.saft]; rfl
  have hrd : C.Reads := by
    unfold DasCall.Reads
    rw [UniArgs.listed_method h.saft]
    rcases hst with g | g | g
    · exact .inl g
    · exact .inr (.inl g)
    · refine .inr (.inr ⟨h.pos, ?_, ?_⟩)
      · show 2 * nt ≤ 3 * nr; omega
      · show nr ≤ 3 * nt; omega
  have hcol := fun i (hi : i < Nx * Ny * Nz) => launched_columns 1 (Nx * Ny * Nz) (uniItems m A) fresh H hNo
    (fun i hi => by
      unfold itemOut
      rcases uni_run h hY i _ _ _ (h.point i hi) (fun j => fresh (1 * i + j)) with ⟨g, _⟩ | g <;> rw [g] <;>
        simp)
    hl i hi
  have hk : ∀ i, i < C.No → C.Index i (idxOf (fsKhz C.dt) (C.dpTime i)) := by
    intro i hi q hq
    obtain ⟨c, hc, _⟩ := hcol i hi
    unfold itemOut at hc
    rcases uni_run h hY i _ _ _ (h.point i hi) (fun j => fresh (1 * i + j)) with ⟨_, g⟩ | g
    · have := g q (hsc ▸ hq)
      unfold idxOf at this ⊢
      rw [uniPath_listed h hst i q (hsc ▸ hq)] at this
      exact castIdx_of_castInt this
    · rw [g] at hc; simp at hc
  rw [C30_image hsz hrd (fun n => idxOf (fsKhz C.dt) (C.dpTime n)) hk (.inl (by simp [UniArgs.listed, codeOf]))
    nth hth as hab s' hrun n hn]
  obtain ⟨c, hc, hH⟩ := hcol n hn
  unfold itemOut at hc
  rcases uni_run h hY n _ _ _ (h.point n hn) (fun j => fresh (1 * n + j)) with ⟨g, _⟩ | g
  · rw [g] at hc
    simp only [Outcome.ok.injEq, Prod.mk.injEq] at hc
    have := hH 0 (by omega)
    rw [← hc.1] at this
    simp only [Nat.one_mul, Nat.add_zero, if_true] at this
    rw [this, hsc]
    refine DasData.acc_congr _ _ _ _ fun q hq => ?_
    unfold idxOf
    rw [uniPath_listed h hst n q hq]
    rfl
  · rw [g] at hc; simp at hc

end Exact

/-! ### Examples -/

section Example

/-- Two transmitters at 0 and 3, two receivers at 0 and 1, a 4 by 4 by 4 grid. -/
noncomputable def exUniArgs : UniArgs ℝ where
  tx := ⟨0, 3, 3⟩
  rx := ⟨0, 1, 1⟩
  ix := ⟨0, 2, 6⟩
  iy := ⟨1, 3, 10⟩
  iz := ⟨2, 1, 5⟩
  Y := ⟨40000, fun i => i⟩
  len := 10000
  dt := 1
  delay := 0
  cp := 1

theorem axis_dev_real {a : Axis ℝ} {n : ℕ} (h : (a.hi - a.lo) / a.step + 1 = n) (hn : n < 2147483648) :
    a.dev = .ok (n : Int) := by
  unfold Axis.dev castInt int32 Axis.raw
  simp only [r_add, r_sub, r_div, r_lit, r_trunc]
  rw [show (a.hi - a.lo) / a.step + ((1 : ℚ) : ℝ) = n by rw [← h]; norm_num]
  unfold truncR
  rw [if_pos (Nat.cast_nonneg n), Int.floor_natCast, if_pos]
  left
  simpa using hn

theorem exUni_counts : UniCounts .tfm exUniArgs 2 2 4 4 4 := by
  refine ⟨?_, fun _ => ?_, ?_, ?_, ?_, ?_, by omega⟩
  · exact axis_dev_real (by norm_num [exUniArgs]) (by omega)
  · exact axis_dev_real (by norm_num [exUniArgs]) (by omega)
  · exact axis_dev_real (by norm_num [exUniArgs]) (by omega)
  · exact axis_dev_real (by norm_num [exUniArgs]) (by omega)
  · exact axis_dev_real (by norm_num [exUniArgs]) (by omega)
  · constructor
    · intro h; simp at h
    · intro h; omega

theorem exUni_rca : UniCounts .rcaColtx exUniArgs 2 2 4 4 4 :=
  ⟨exUni_counts.tx, fun _ => exUni_counts.rx (by simp), exUni_counts.ix, exUni_counts.iy, exUni_counts.iz,
    ⟨fun h => by simp at h, fun h => by omega⟩, by omega⟩

-- C61 for total focusing and for a row-column array: every launch of the 64 work-items
example (fresh H : ℕ → ℝ) (hl : Launched 1 64 (uniItems .tfm exUniArgs) fresh H) :
    H (3 + 4 * (2 + 4 * 1)) = uniPixel .tfm exUniArgs 2 2 (0 + (1 : ℕ) * 2) (1 + (3 : ℕ) * 3) (2 + (2 : ℕ) * 1) :=
  C61_image exUni_counts (by simp [uniScans, exUniArgs]) rfl fresh H hl 1 3 2 (by omega) (by omega) (by omega)

-- C61_as_das for the row-column method applies as well
example : exUniArgs.stripes .rcaColtx 2 2 := by
  refine .inr (.inr ⟨rfl, ?_, ?_⟩) <;> simp [Axis.pos, exUniArgs]

end Example

end Dream
