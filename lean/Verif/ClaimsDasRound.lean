import Verif.ClaimsSirRound
import Verif.ClaimsRound

/-
C90: which A-scan samples a delay-and-sum image uses in floating point (extra_src/das.cc).
-/

namespace Dream
open Arith

variable {F : Type} [Arith F] {Φ : FloatView F}

/-! ### Specification -/

/-- Signed distance from `v` to the interval from `lo` to `hi`: zero inside it, otherwise to the end
that is exceeded. -/
noncomputable def gapTo (lo hi v : ℝ) : ℝ :=
  if lo ≤ v ∧ v ≤ hi then 0 else if v < lo then lo - v else hi - v

/-- Length of a vector. -/
noncomputable def norm3 (g : ℝ × ℝ × ℝ) : ℝ := Real.sqrt (g.1 ^ 2 + g.2.1 ^ 2 + g.2.2 ^ 2)

namespace DasCall

/-- Vector from image point `n` to element `i` of the transmit grid. -/
noncomputable def txLeg (Φ : FloatView F) (C : DasCall F) (n i : ℕ) : ℝ × ℝ × ℝ :=
  (Φ.val (C.Gt.data i) - Φ.val (C.xo n), Φ.val (C.Gt.data (i + C.nt)) - Φ.val (C.yo n),
    Φ.val (C.Gt.data (i + 2 * C.nt)) - Φ.val (C.zo n))

/-- Vector from image point `n` to element `j` of the receive grid. -/
noncomputable def rxLeg (Φ : FloatView F) (C : DasCall F) (n j : ℕ) : ℝ × ℝ × ℝ :=
  (Φ.val (C.Gr.data j) - Φ.val (C.xo n), Φ.val (C.Gr.data (j + C.nr)) - Φ.val (C.yo n),
    Φ.val (C.Gr.data (j + 2 * C.nr)) - Φ.val (C.zo n))

/-- Shortest vector from image point `n` to column stripe `i`, which extends in y from the first to the
last y limit. -/
noncomputable def colLeg (Φ : FloatView F) (C : DasCall F) (n i : ℕ) : ℝ × ℝ × ℝ :=
  (Φ.val (C.Gt.data i) - Φ.val (C.xo n),
    gapTo (Φ.val (C.Gr.data C.nt)) (Φ.val (C.Gr.data (2 * C.nt - 1))) (Φ.val (C.yo n)),
    Φ.val (C.Gt.data (i + 2 * C.nt)) - Φ.val (C.zo n))

/-- Shortest vector from image point `n` to row stripe `j`, which extends in x between the x limits. -/
noncomputable def rowLeg (Φ : FloatView F) (C : DasCall F) (n j : ℕ) : ℝ × ℝ × ℝ :=
  (gapTo (Φ.val (C.Gt.data 0)) (Φ.val (C.Gt.data (C.nr - 1))) (Φ.val (C.xo n)),
    Φ.val (C.Gr.data (j + C.nr)) - Φ.val (C.yo n),
    Φ.val (C.Gr.data (j + 2 * C.nr)) - Φ.val (C.zo n))

/-- The two legs of the path that A-scan `q` belongs to. -/
noncomputable def legs (Φ : FloatView F) (C : DasCall F) (n q : ℕ) : (ℝ × ℝ × ℝ) × (ℝ × ℝ × ℝ) :=
  match C.method with
  | .saft => (C.txLeg Φ n q, C.txLeg Φ n q)
  | .tfm => (C.txLeg Φ n (q / C.nr), C.rxLeg Φ n (q % C.nr))
  | .rcaColtx => (C.colLeg Φ n (q / C.nr), C.rowLeg Φ n (q % C.nr))
  | .rcaRowtx => (C.colLeg Φ n (q % C.nt), C.rowLeg Φ n (q / C.nt))

/-- How often the system delay counts. -/
def delays (C : DasCall F) : ℝ := if C.method = .saft then 2 else 1

/-- Exact length of the path of A-scan `q`, in mm. -/
noncomputable def path (Φ : FloatView F) (C : DasCall F) (n q : ℕ) : ℝ :=
  norm3 (C.legs Φ n q).1 + norm3 (C.legs Φ n q).2

/-- Exact sample position, counted in sampling intervals `dt` [us]: the travel time at `cp` [m/s] and
the system delay [us]. -/
noncomputable def position (Φ : FloatView F) (C : DasCall F) (n q : ℕ) : ℝ :=
  (C.path Φ n q * 1000 / Φ.val C.cp + C.delays * Φ.val (C.delayAt n)) / Φ.val C.dt

/-- What the error is relative to. -/
noncomputable def extent (Φ : FloatView F) (C : DasCall F) (n q : ℕ) : ℝ :=
  (C.path Φ n q * 1000 / Φ.val C.cp + C.delays * |Φ.val (C.delayAt n)|) / Φ.val C.dt

/-- Bound of the error of the computed position: eleven roundings, and underflow. -/
noncomputable def posErr (Φ : FloatView F) (C : DasCall F) (n q : ℕ) : ℝ :=
  relErr Φ.u 11 * C.extent Φ n q + Φ.eta * (1 + 2000 / Φ.val C.dt)

/-- Nothing that is computed for a leg underflows. -/
structure ClearLeg (Φ : FloatView F) (cp : ℝ) (g : ℝ × ℝ × ℝ) : Prop where
  x : Φ.Clear (g.1 ^ 2)
  y : Φ.Clear (g.2.1 ^ 2)
  z : Φ.Clear (g.2.2 ^ 2)
  time : Φ.Clear (norm3 g * (1 / cp))

/-- `cp` and `dt` are finite and positive, the stripe limits finite, and nothing underflows. -/
structure Normal (Φ : FloatView F) (C : DasCall F) (n q : ℕ) : Prop where
  fcp : Φ.fin C.cp
  cp : 0 < Φ.val C.cp
  fdt : Φ.fin C.dt
  dt : 0 < Φ.val C.dt
  limits : C.method = .rcaColtx ∨ C.method = .rcaRowtx →
    Φ.fin (C.Gr.data C.nt) ∧ Φ.fin (C.Gr.data (2 * C.nt - 1)) ∧ Φ.fin (C.Gt.data 0) ∧
      Φ.fin (C.Gt.data (C.nr - 1))
  leg1 : ClearLeg Φ (Φ.val C.cp) (C.legs Φ n q).1
  leg2 : ClearLeg Φ (Φ.val C.cp) (C.legs Φ n q).2
  inv_cp : Φ.Clear (1 / Φ.val C.cp)
  inv_dt : Φ.Clear (1 / Φ.val C.dt)
  rate : Φ.Clear (1 / Φ.val C.dt * 1000)
  delay : Φ.Clear (Φ.val (C.delayAt n) / 1000)

end DasCall

/-! ### Proofs -/

theorem norm3_nonneg (g : ℝ × ℝ × ℝ) : 0 ≤ norm3 g := Real.sqrt_nonneg _

theorem truncR_sub_lt (x : ℝ) : |(truncR x : ℝ) - x| < 1 := by
  unfold truncR
  split
  · rw [abs_lt]
    constructor
    · linarith [Int.lt_floor_add_one x]
    · linarith [Int.floor_le x]
  · rw [abs_lt]
    constructor
    · linarith [Int.le_ceil x]
    · linarith [Int.ceil_lt_add_one x]

/-- A number near `P` has the same integer part if `P` is not that near to an integer. -/
theorem truncR_near {x P E : ℝ} (h : |x - P| ≤ E) (hm : ∀ m : ℤ, E < |P - m|) :
    truncR x = truncR P := by
  rw [abs_le] at h
  have hE : ∀ m : ℤ, (m : ℝ) ≤ x ↔ (m : ℝ) ≤ P := by
    intro m
    have := hm m
    rw [lt_abs] at this
    constructor <;> intro hx <;> rcases this with h1 | h1 <;> linarith
  have hE' : ∀ m : ℤ, x ≤ (m : ℝ) ↔ P ≤ (m : ℝ) := by
    intro m
    have := hm m
    rw [lt_abs] at this
    constructor <;> intro hx <;> rcases this with h1 | h1 <;> linarith
  unfold truncR
  have h0 : 0 ≤ x ↔ 0 ≤ P := by simpa using hE 0
  by_cases hP : 0 ≤ P
  · rw [if_pos hP, if_pos (h0.2 hP)]
    apply le_antisymm
    · exact Int.le_floor.2 ((hE _).1 (Int.floor_le x))
    · exact Int.le_floor.2 ((hE _).2 (Int.floor_le P))
  · rw [if_neg hP, if_neg (fun hc => hP (h0.1 hc))]
    apply le_antisymm
    · exact Int.ceil_le.2 ((hE' _).2 (Int.le_ceil P))
    · exact Int.ceil_le.2 ((hE' _).1 (Int.le_ceil x))

section Proofs
variable (L : FloatLaws Φ) (hu : Φ.u ≤ 1 / 32)
include L

theorem edge_err {lo hi v : F} (h1 : Φ.fin lo) (h2 : Φ.fin hi) (h3 : Φ.fin v)
    (hf : Φ.fin (edge lo hi v)) :
    |Φ.val (edge lo hi v) - gapTo (Φ.val lo) (Φ.val hi) (Φ.val v)| ≤
      Φ.u * |gapTo (Φ.val lo) (Φ.val hi) (Φ.val v)| := by
  unfold edge gapTo at *
  simp only [L.le _ _ h1 h3, L.le _ _ h3 h2, L.lt _ _ h3 h1] at hf ⊢
  split
  · rw [L.zero.2]; simp
  · rename_i hn
    rw [if_neg hn] at hf
    split
    · rename_i hl
      rw [if_pos hl] at hf
      exact (L.sub _ _ hf).2.2
    · rename_i hl
      rw [if_neg hl] at hf
      exact (L.sub _ _ hf).2.2

theorem travel_fin {a b c d : F} (hf : Φ.fin (travel a b c d)) : Φ.fin a ∧ Φ.fin b ∧ Φ.fin c := by
  obtain ⟨f1, f2, _⟩ := L.mul _ _ hf
  obtain ⟨f3, _⟩ := L.sqrt _ f1
  obtain ⟨f4, f5, _⟩ := L.add _ _ f3
  obtain ⟨f6, f7, _⟩ := L.add _ _ f4
  exact ⟨(L.mul _ _ f6).1, (L.mul _ _ f7).1, (L.mul _ _ f5).1⟩

include hu

theorem oneOver_rel {cp : F} (hf : Φ.fin (oneOver cp)) (hfc : Φ.fin cp) (hc : 0 < Φ.val cp)
    (c : Φ.Clear (1 / Φ.val cp)) : Rel Φ.u 1 (Φ.val (oneOver cp)) (1 / Φ.val cp) := by
  have h1 := rel_small L hu 1 (by norm_num)
  push_cast at h1
  exact rel_div L hu (by norm_num) hf hfc hc.ne' h1 (Rel.refl L.u_nonneg (u_lt L hu) _ 0) c

/-- The computed travel time of a leg. -/
theorem travel_rel {a b c cp : F} {g : ℝ × ℝ × ℝ} (hf : Φ.fin (travel a b c (oneOver cp)))
    (ha : Φ.fin a → |Φ.val a - g.1| ≤ Φ.u * |g.1|) (hb : Φ.fin b → |Φ.val b - g.2.1| ≤ Φ.u * |g.2.1|)
    (hc : Φ.fin c → |Φ.val c - g.2.2| ≤ Φ.u * |g.2.2|)
    (hfc : Φ.fin cp) (hcp : 0 < Φ.val cp) (ci : Φ.Clear (1 / Φ.val cp))
    (cl : DasCall.ClearLeg Φ (Φ.val cp) g) :
    Rel Φ.u 6 (Φ.val (travel a b c (oneOver cp))) (norm3 g * (1 / Φ.val cp)) := by
  have h1 := u_lt L hu
  have h0 := L.u_nonneg
  obtain ⟨f1, f2, _⟩ := L.mul _ _ hf
  obtain ⟨f3, _⟩ := L.sqrt _ f1
  obtain ⟨f4, f5, _⟩ := L.add _ _ f3
  obtain ⟨f6, f7, _⟩ := L.add _ _ f4
  have := dist3_near L hu (a := a) (b := b) (c := c) f1 (ha (L.mul _ _ f6).1) (hb (L.mul _ _ f7).1)
    (hc (L.mul _ _ f5).1) cl.x cl.y cl.z
  exact rel_mul L hu (by norm_num) hf (Rel.of_near h0 h1 this) (oneOver_rel L hu f2 hfc hcp ci) cl.time

/-- Adding a second number, both known up to a relative error. -/
theorem add_step {a b : F} {A B SA SB : ℝ} {k : ℕ} (hf : Φ.fin (a +. b))
    (ha : |Φ.val a - A| ≤ relErr Φ.u k * SA) (hb : |Φ.val b - B| ≤ relErr Φ.u k * SB)
    (hA : |A| ≤ SA) (hB : |B| ≤ SB) :
    |Φ.val (a +. b) - (A + B)| ≤ relErr Φ.u (k + 1) * (SA + SB) := by
  have h0 := L.u_nonneg
  have e := (L.add _ _ hf).2.2
  have ks := relErr_succ L hu k
  generalize Φ.val (a +. b) = s at *
  generalize Φ.val a = x at *
  generalize Φ.val b = y at *
  have hS : 0 ≤ SA + SB := add_nonneg ((abs_nonneg _).trans hA) ((abs_nonneg _).trans hB)
  have g1 : |x + y - (A + B)| ≤ relErr Φ.u k * (SA + SB) := by
    rw [show x + y - (A + B) = (x - A) + (y - B) by ring]
    have := abs_add_le (x - A) (y - B)
    linarith
  have g2 : |x + y| ≤ (1 + relErr Φ.u k) * (SA + SB) := by
    have := abs_add_le (A + B) (x + y - (A + B))
    rw [add_sub_cancel] at this
    have := abs_add_le A B
    linarith
  have g3 := mul_le_mul_of_nonneg_left g2 h0
  have g4 : |s - (A + B)| ≤ |s - (x + y)| + |x + y - (A + B)| := by
    rw [show s - (A + B) = (s - (x + y)) + (x + y - (A + B)) by ring]
    exact abs_add_le _ _
  have g5 := mul_le_mul_of_nonneg_right ks hS
  generalize relErr Φ.u k = r at *
  generalize relErr Φ.u (k + 1) = r' at *
  nlinarith

theorem relErr_mono {k l : ℕ} (h : k ≤ l) : relErr Φ.u k ≤ relErr Φ.u l := by
  have h1 := u_lt L hu
  have h0 := L.u_nonneg
  unfold relErr
  have : ((1 - Φ.u) ^ k)⁻¹ ≤ ((1 - Φ.u) ^ l)⁻¹ := by
    apply inv_anti₀ (pow_pos (by linarith) l)
    exact pow_le_pow_of_le_one (by linarith) (by linarith) h
  linarith

theorem Rel.err {k l : ℕ} (hkl : k ≤ l) {x y : ℝ} (h : Rel Φ.u k x y) : |x - y| ≤ relErr Φ.u l * |y| :=
  (h.abs_sub L.u_nonneg (u_lt L hu)).trans
    (mul_le_mul_of_nonneg_right (relErr_mono L hu hkl) (abs_nonneg y))

/-- The computed time multiplied by the computed sampling frequency. -/
theorem sample_err {t dt : F} {M S : ℝ} (hf : Φ.fin (t *. fsKhz dt)) (hfd : Φ.fin dt) (hd : 0 < Φ.val dt)
    (c1 : Φ.Clear (1 / Φ.val dt)) (c2 : Φ.Clear (1 / Φ.val dt * 1000))
    (ht : |Φ.val t - M| ≤ relErr Φ.u 8 * S + Φ.eta) (hM : |M| ≤ S) :
    |Φ.val (t *. fsKhz dt) - M * (1000 / Φ.val dt)| ≤
      relErr Φ.u 11 * (S * (1000 / Φ.val dt)) + Φ.eta * (1 + 2000 / Φ.val dt) := by
  have h1 := u_lt L hu
  have h0 := L.u_nonneg
  have hη := L.eta_nonneg
  obtain ⟨_, ff, e, _⟩ := L.mul _ _ hf
  obtain ⟨f1, _, _⟩ := L.mul _ _ ff
  have r1 := oneOver_rel L hu (cp := dt) f1 hfd hd c1
  have hk : Rel Φ.u 0 (Φ.val (lit 1000)) 1000 := by
    have := rel_small L hu 1000 (le_refl _)
    push_cast at this
    exact this
  have r2 : Rel Φ.u 2 (Φ.val (fsKhz dt)) (1 / Φ.val dt * 1000) :=
    rel_mul L hu (by norm_num) ff r1 hk c2
  have hF : 1 / Φ.val dt * 1000 = 1000 / Φ.val dt := by ring
  have hFp : 0 < 1000 / Φ.val dt := by positivity
  have h2k : 2000 / Φ.val dt = 2 * (1000 / Φ.val dt) := by ring
  rw [hF] at r2
  rw [h2k]
  have b1 := r2.abs_sub h0 h1
  rw [abs_of_pos hFp] at b1
  have hS : 0 ≤ S := (abs_nonneg M).trans hM
  generalize Φ.val (t *. fsKhz dt) = x at *
  generalize Φ.val (fsKhz dt) = f at *
  generalize Φ.val t = m at *
  generalize 1000 / Φ.val dt = G at *
  have p2 : 0 ≤ relErr Φ.u 2 := relErr_nonneg L hu 2
  have p8 : 0 ≤ relErr Φ.u 8 := relErr_nonneg L hu 8
  have e11 : (1 + relErr Φ.u 8) * (1 + relErr Φ.u 2) * (1 + Φ.u) - 1 ≤ relErr Φ.u 11 := by
    have := relErr_succ L hu 10
    have e : (1 + relErr Φ.u 8) * (1 + relErr Φ.u 2) = 1 + relErr Φ.u 10 := by
      unfold relErr
      have : (1 - Φ.u) ^ 10 = (1 - Φ.u) ^ 8 * (1 - Φ.u) ^ 2 := by ring
      rw [this, mul_inv]; ring
    rw [e]; exact this
  have hle : (1 + Φ.u) * (1 + relErr Φ.u 2) ≤ 2 := by
    have hb : 1 + relErr Φ.u 2 ≤ 3 / 2 := by
      unfold relErr
      have g : (31 / 32 : ℝ) ^ 2 ≤ (1 - Φ.u) ^ 2 := pow_le_pow_left₀ (by norm_num) (by linarith) 2
      have : ((1 - Φ.u) ^ 2)⁻¹ ≤ ((31 / 32 : ℝ) ^ 2)⁻¹ := inv_anti₀ (by norm_num) g
      have h3 : ((31 / 32 : ℝ) ^ 2)⁻¹ ≤ 3 / 2 := by norm_num
      linarith
    have : (1 + Φ.u) * (1 + relErr Φ.u 2) ≤ (33 / 32) * (3 / 2) :=
      mul_le_mul (by linarith) hb (by linarith) (by norm_num)
    linarith
  generalize relErr Φ.u 2 = r at *
  generalize relErr Φ.u 8 = s at *
  generalize relErr Φ.u 11 = w at *
  generalize Φ.u = u at *
  generalize Φ.eta = η at *
  have a1 : |f| ≤ (1 + r) * G := by
    have := abs_add_le G (f - G)
    rw [add_sub_cancel, abs_of_pos hFp] at this
    linarith
  have a2 : |m| ≤ (1 + s) * S + η := by
    have := abs_add_le M (m - M)
    rw [add_sub_cancel] at this
    linarith
  have a3 : |m * f| ≤ ((1 + s) * S + η) * ((1 + r) * G) := by
    rw [abs_mul]
    exact mul_le_mul a2 a1 (abs_nonneg f) ((abs_nonneg m).trans a2)
  have a4 : |m * f - M * G| ≤ (s * S + η) * ((1 + r) * G) + S * (r * G) := by
    rw [show m * f - M * G = (m - M) * f + M * (f - G) by ring]
    refine (abs_add_le _ _).trans (add_le_add ?_ ?_)
    · rw [abs_mul]
      exact mul_le_mul ht a1 (abs_nonneg f) ((abs_nonneg _).trans ht)
    · rw [abs_mul]
      exact mul_le_mul hM b1 (abs_nonneg _) hS
  have a5 : |x - M * G| ≤ |x - m * f| + |m * f - M * G| := by
    rw [show x - M * G = (x - m * f) + (m * f - M * G) by ring]
    exact abs_add_le _ _
  have a6 := mul_le_mul_of_nonneg_left a3 h0
  have a7 := mul_le_mul_of_nonneg_right e11 (mul_nonneg hS hFp.le)
  have a8 := mul_le_mul_of_nonneg_right hle (mul_nonneg hη hFp.le)
  have e9 : u * (((1 + s) * S + η) * ((1 + r) * G)) + η + ((s * S + η) * ((1 + r) * G) + S * (r * G)) =
      ((1 + s) * (1 + r) * (1 + u) - 1) * (S * G) + (1 + u) * (1 + r) * (η * G) + η := by ring
  have e10 : w * (S * G) + η * (1 + 2 * G) = w * (S * G) + 2 * (η * G) + η := by ring
  linarith

theorem delay_err {d : F} (hf : Φ.fin (delayMs d)) (c : Φ.Clear (Φ.val d / 1000)) :
    |Φ.val (delayMs d) - Φ.val d / 1000| ≤ relErr Φ.u 6 * |Φ.val d / 1000| := by
  have h1 := u_lt L hu
  have h0 := L.u_nonneg
  have h := L.small 1000 (le_refl _)
  have hk := rel_small L hu 1000 (le_refl _)
  push_cast at h hk
  have := rel_div L hu (a := d) (k := 0) (l := 0) (by norm_num) hf h.1 (by norm_num)
    (Rel.refl h0 h1 _ 0) hk c
  exact this.err L hu (by norm_num)

/-- The sum of the two legs and the delay. -/
theorem pair_err {t1 t2 d : F} {A B D : ℝ} (hf : Φ.fin ((t1 +. d) +. t2)) (hA : 0 ≤ A) (hB : 0 ≤ B)
    (h1 : Φ.fin t1 → Rel Φ.u 6 (Φ.val t1) A) (h2 : Φ.fin t2 → Rel Φ.u 6 (Φ.val t2) B)
    (hd : Φ.fin d → |Φ.val d - D| ≤ relErr Φ.u 6 * |D|) :
    |Φ.val ((t1 +. d) +. t2) - (A + D + B)| ≤ relErr Φ.u 8 * (A + |D| + B) := by
  obtain ⟨f1, f2, _⟩ := L.add _ _ hf
  obtain ⟨f3, f4, _⟩ := L.add _ _ f1
  have a1 := (h1 f3).err L hu le_rfl
  rw [abs_of_nonneg hA] at a1
  have a2 := add_step L hu f1 a1 (hd f4) (by rw [abs_of_nonneg hA]) le_rfl
  have a3 := (h2 f2).err L hu (by norm_num : 6 ≤ 6 + 1)
  rw [abs_of_nonneg hB] at a3
  refine add_step L hu hf a2 a3 ?_ (by rw [abs_of_nonneg hB])
  have := abs_add_le A D
  rwa [abs_of_nonneg hA] at this

variable {C : DasCall F}

/-- The time of A-scan `q`. -/
theorem dpTime_err {n q : ℕ} (hN : C.Normal Φ n q) (hf : Φ.fin (C.dpTime n q)) :
    |Φ.val (C.dpTime n q) - (C.path Φ n q * (1 / Φ.val C.cp) + C.delays * (Φ.val (C.delayAt n) / 1000))| ≤
      relErr Φ.u 8 * (C.path Φ n q * (1 / Φ.val C.cp) + C.delays * |Φ.val (C.delayAt n) / 1000|) + Φ.eta := by
  have h0 := L.u_nonneg
  have hη := L.eta_nonneg
  have hcp : 0 ≤ 1 / Φ.val C.cp := one_div_nonneg.2 hN.cp.le
  have hd : Φ.fin (delayMs (C.delayAt n)) → _ := fun h => delay_err L hu h hN.delay
  have tr := fun (a b c : F) (g : ℝ × ℝ × ℝ) hf ha hb hc cl =>
    travel_rel L hu (a := a) (b := b) (c := c) (g := g) hf ha hb hc hN.fcp hN.cp hN.inv_cp cl
  have n1 := mul_nonneg (norm3_nonneg (C.legs Φ n q).1) hcp
  have n2 := mul_nonneg (norm3_nonneg (C.legs Φ n q).2) hcp
  have l1 := hN.leg1
  have l2 := hN.leg2
  have hlim := hN.limits
  have sb : ∀ {a b : F}, Φ.fin (a -. b) → _ := fun {a b} h => (L.sub a b h).2.2
  unfold DasCall.dpTime DasCall.pathTime at hf ⊢
  unfold DasCall.path DasCall.delays
  unfold DasCall.legs at *
  cases hm : C.method with
  | saft =>
    simp only [hm] at *
    rw [if_pos trivial]
    obtain ⟨_, f1, e, _⟩ := L.mul _ _ hf
    obtain ⟨f2, f3, _⟩ := L.add _ _ f1
    have r := tr _ _ _ _ f2 sb sb sb l1
    have a1 := r.err L hu (le_refl 6)
    rw [abs_of_nonneg n1] at a1
    have a2 := add_step L hu f1 a1 (hd f3) (by rw [abs_of_nonneg n1]) le_rfl
    have two : Φ.val (lit 2) = 2 := by
      have := (L.small 2 (by norm_num)).2
      push_cast at this
      exact this
    rw [two] at e
    have ks := relErr_succ L hu 7
    norm_num at ks a2
    have ks' := relErr_nonneg L hu 7
    change |Φ.val (C.tTime n q +. delayMs (C.delayAt n)) - _| ≤ _ at a2
    generalize Φ.val (lit 2 *. (C.tTime n q +. delayMs (C.delayAt n))) = x at *
    generalize Φ.val (C.tTime n q +. delayMs (C.delayAt n)) = y at *
    rw [← two_mul, mul_assoc]
    rw [one_div] at n1 ⊢
    generalize norm3 (C.txLeg Φ n q) * (Φ.val C.cp)⁻¹ = A at *
    generalize Φ.val (C.delayAt n) / 1000 = D at *
    have hS : |A + D| ≤ A + |D| := by
      have := abs_add_le A D
      rwa [abs_of_nonneg n1] at this
    have hS0 : 0 ≤ A + |D| := add_nonneg n1 (abs_nonneg D)
    have g1 : |y| ≤ (1 + relErr Φ.u 7) * (A + |D|) := by
      have := abs_add_le (A + D) (y - (A + D))
      rw [add_sub_cancel] at this
      linarith
    have g2 : |x - 2 * (A + D)| ≤ |x - 2 * y| + 2 * |y - (A + D)| := by
      have e2 : (2 : ℝ) * |y - (A + D)| = |2 * (y - (A + D))| := by
        rw [abs_mul, abs_of_pos (by norm_num : (0 : ℝ) < 2)]
      rw [e2, show x - 2 * (A + D) = (x - 2 * y) + 2 * (y - (A + D)) by ring]
      exact abs_add_le _ _
    rw [abs_mul, abs_of_pos (by norm_num : (0 : ℝ) < 2)] at e
    have g3 := mul_le_mul_of_nonneg_left g1 h0
    have g4 := mul_le_mul_of_nonneg_right ks hS0
    rw [show 2 * A + 2 * D = 2 * (A + D) by ring, show 2 * A + 2 * |D| = 2 * (A + |D|) by ring]
    generalize A + |D| = S at *
    generalize relErr Φ.u 7 = r at *
    generalize relErr Φ.u 8 = r' at *
    nlinarith
  | tfm =>
    simp only [hm] at *
    rw [if_neg (by decide)]
    have := pair_err L hu hf n1 n2 (fun h => tr _ _ _ _ h sb sb sb l1) (fun h => tr _ _ _ _ h sb sb sb l2) hd
    rw [one_mul, one_mul, add_mul, add_right_comm, add_right_comm (_ * _) (_ * _) |_|]
    linarith
  | rcaColtx =>
    simp only [hm] at *
    rw [if_neg (by decide)]
    obtain ⟨q1, q2, q3, q4⟩ := hlim (.inl trivial)
    obtain ⟨f1, f2, _⟩ := L.add _ _ hf
    obtain ⟨f3, _, _⟩ := L.add _ _ f1
    have fx := travel_fin L f3
    have fy := travel_fin L f2
    have fxo := (L.sub _ _ fx.1).2.1
    have fyo := (L.sub _ _ fy.2.1).2.1
    have := pair_err L hu hf n1 n2
      (fun h => tr _ _ _ _ h sb (fun h => edge_err L q1 q2 fyo h) sb l1)
      (fun h => tr _ _ _ _ h (fun h => edge_err L q3 q4 fxo h) sb sb l2) hd
    rw [one_mul, one_mul, add_mul, add_right_comm, add_right_comm (_ * _) (_ * _) |_|]
    linarith
  | rcaRowtx =>
    simp only [hm] at *
    rw [if_neg (by decide)]
    obtain ⟨q1, q2, q3, q4⟩ := hlim (.inr trivial)
    obtain ⟨f1, f2, _⟩ := L.add _ _ hf
    obtain ⟨f3, _, _⟩ := L.add _ _ f1
    have fx := travel_fin L f3
    have fy := travel_fin L f2
    have fxo := (L.sub _ _ fx.1).2.1
    have fyo := (L.sub _ _ fy.2.1).2.1
    have := pair_err L hu hf n1 n2
      (fun h => tr _ _ _ _ h sb (fun h => edge_err L q1 q2 fyo h) sb l1)
      (fun h => tr _ _ _ _ h (fun h => edge_err L q3 q4 fxo h) sb sb l2) hd
    rw [one_mul, one_mul, add_mul, add_right_comm, add_right_comm (_ * _) (_ * _) |_|]
    linarith

/-- The computed sample position. -/
theorem position_err {n q : ℕ} (hN : C.Normal Φ n q) (hf : Φ.fin (C.dpTime n q *. fsKhz C.dt)) :
    |Φ.val (C.dpTime n q *. fsKhz C.dt) - C.position Φ n q| ≤ C.posErr Φ n q := by
  have h := dpTime_err L hu hN (L.mul _ _ hf).1
  have hc := hN.cp
  have hd := hN.dt
  have hp : 0 ≤ C.path Φ n q * (1 / Φ.val C.cp) :=
    mul_nonneg (add_nonneg (norm3_nonneg _) (norm3_nonneg _)) (one_div_nonneg.2 hc.le)
  have hdl : 0 ≤ C.delays := by unfold DasCall.delays; split <;> norm_num
  have := sample_err L hu hf hN.fdt hd hN.inv_dt hN.rate h (by
    refine (abs_add_le _ _).trans (add_le_add ?_ ?_)
    · rw [abs_of_nonneg hp]
    · rw [abs_mul, abs_of_nonneg hdl])
  unfold DasCall.posErr
  have e1 : C.position Φ n q = (C.path Φ n q * (1 / Φ.val C.cp) +
      C.delays * (Φ.val (C.delayAt n) / 1000)) * (1000 / Φ.val C.dt) := by
    unfold DasCall.position
    field_simp
  have e2 : C.extent Φ n q = (C.path Φ n q * (1 / Φ.val C.cp) +
      C.delays * |Φ.val (C.delayAt n) / 1000|) * (1000 / Φ.val C.dt) := by
    unfold DasCall.extent
    rw [abs_div, abs_of_pos (by norm_num : (0 : ℝ) < 1000)]
    field_simp
  rw [e1, e2]
  exact this

/-- C90: the sample position of every A-scan.  The index that the program uses is the integer part of a
number within `posErr` of the exact travel time in sampling intervals; so it is less than one sample
plus `posErr` away from it, and the integer part of the exact position unless that is within `posErr` of
an integer. -/
theorem C90_position {n : ℕ} {k : ℕ → ℤ} (hk : C.Index n k) (q : ℕ) (hq : q < C.scans)
    (hN : C.Normal Φ n q) :
    (∃ x, |x - C.position Φ n q| ≤ C.posErr Φ n q ∧ k q = truncR x) ∧
    |(k q : ℝ) - C.position Φ n q| < 1 + C.posErr Φ n q ∧
    ((∀ m : ℤ, C.posErr Φ n q < |C.position Φ n q - m|) → k q = truncR (C.position Φ n q)) := by
  have hi := hk q hq
  have : ∃ i, Arith.trunc (C.dpTime n q *. fsKhz C.dt) = some i := by
    cases ht : Arith.trunc (C.dpTime n q *. fsKhz C.dt) with
    | none => rw [ht] at hi; cases hi
    | some i => exact ⟨i, rfl⟩
  obtain ⟨i, ht⟩ := this
  rw [ht] at hi
  have hki : k q = i := by
    unfold castIdx at hi
    simp only [] at hi
    split at hi
    · cases hi; rfl
    · cases hi
  obtain ⟨fin, hv⟩ := L.trunc _ _ ht
  have he := position_err L hu hN fin
  rw [hki, hv]
  refine ⟨⟨_, he, rfl⟩, ?_, fun hm => truncR_near he hm⟩
  have h1 := truncR_sub_lt (Φ.val (C.dpTime n q *. fsKhz C.dt))
  have h2 := abs_add_le ((truncR (Φ.val (C.dpTime n q *. fsKhz C.dt)) : ℝ) - Φ.val (C.dpTime n q *. fsKhz C.dt))
    (Φ.val (C.dpTime n q *. fsKhz C.dt) - C.position Φ n q)
  rw [sub_add_sub_cancel] at h2
  linarith

/-- C90: the image in floating point.  If no exact sample position of an image point is within its error
bound of an integer, every complete run of das leaves there the exact sum of the A-scan samples at the
integer parts of the exact positions, up to `(1+u)^scans - 1` times the sum of their absolute values. -/
theorem C90_image {Im : Buf F} (h : C.Sized Im) (hr : C.Reads)
    (hdef : ∀ n, n < C.No → ∃ k, C.Index n k) (hok : codeOf C.level ≠ .outOfBounds)
    (nth : ℕ) (h1 : 1 ≤ nth) (as : List Act) (hab : Act.abort ∉ as) (s' : Sys F (Prog F SIRError))
    (hrun : C.drv.Run nth Im as s') (n : ℕ) (hn : n < C.No) (hf : Φ.fin (s'.mem.data n))
    (hN : ∀ q, q < C.scans → C.Normal Φ n q)
    (hm : ∀ q, q < C.scans → ∀ m : ℤ, C.posErr Φ n q < |C.position Φ n q - m|) :
    |Φ.val (s'.mem.data n) - ∑ q ∈ Finset.range C.scans,
        sampleAt (fun i => Φ.val (C.Y.data i)) C.len q (truncR (C.position Φ n q))| ≤
    ((1 + Φ.u) ^ C.scans - 1) * ∑ q ∈ Finset.range C.scans,
        |sampleAt (fun i => Φ.val (C.Y.data i)) C.len q (truncR (C.position Φ n q))| := by
  choose! k hk using hdef
  have := C73_das L h hr k hk hok nth h1 as hab s' hrun n hn hf
  have e : ∀ q ∈ Finset.range C.scans, k n q = truncR (C.position Φ n q) := fun q hq =>
    (C90_position L hu (hk n hn) q (Finset.mem_range.1 hq) (hN q (Finset.mem_range.1 hq))).2.2
      (hm q (Finset.mem_range.1 hq))
  have e1 : ∑ q ∈ Finset.range C.scans, sampleAt (fun i => Φ.val (C.Y.data i)) C.len q (k n q) =
      ∑ q ∈ Finset.range C.scans,
        sampleAt (fun i => Φ.val (C.Y.data i)) C.len q (truncR (C.position Φ n q)) :=
    Finset.sum_congr rfl fun q hq => by rw [e q hq]
  have e2 : ∑ q ∈ Finset.range C.scans, |sampleAt (fun i => Φ.val (C.Y.data i)) C.len q (k n q)| =
      ∑ q ∈ Finset.range C.scans,
        |sampleAt (fun i => Φ.val (C.Y.data i)) C.len q (truncR (C.position Φ n q))| :=
    Finset.sum_congr rfl fun q hq => by rw [e q hq]
  rw [e1, e2] at this
  exact this

end Proofs

/-! ### Non-vacuity -/

/-- Row-column array, columns transmit: columns at x = 0 and 24, rows at y = -9 and 0, image point
(0, 6, 8), which lies outside the stripes in y; delay half a sample. -/
noncomputable def exRndRca : DasCall (Rnd 53) where
  Y := ⟨160, fun i => ⟨(i : ℝ) / 3⟩⟩
  len := 40
  ty := .signed
  level := .ignore
  dasType := .rcaColtx
  Gt := ⟨6, fun i => if i = 1 then ⟨24⟩ else ⟨0⟩⟩
  nt := 2
  Gr := ⟨6, fun i => if i = 2 then ⟨-9⟩ else ⟨0⟩⟩
  nr := 2
  Ro := ⟨3, fun i => if i = 0 then ⟨0⟩ else if i = 1 then ⟨6⟩ else ⟨8⟩⟩
  No := 1
  dt := ⟨1⟩
  cp := ⟨1000⟩
  delayType := .single
  delay := ⟨1, fun _ => ⟨1 / 2⟩⟩

theorem exRndRca_method : exRndRca.method = .rcaColtx := by simp [exRndRca, DasCall.method]

theorem exRndRca_path (q : ℕ) (hq : q < 4) : exRndRca.path (rndView 53) 0 q =
    ((if q < 2 then 10 else 26 : ℕ) : ℝ) + ((if q % 2 = 0 then 17 else 10 : ℕ) : ℝ) := by
  have s10 : Real.sqrt 100 = 10 := by
    rw [show (100 : ℝ) = 10 ^ 2 by norm_num]; exact Real.sqrt_sq (by norm_num)
  have s26 : Real.sqrt 676 = 26 := by
    rw [show (676 : ℝ) = 26 ^ 2 by norm_num]; exact Real.sqrt_sq (by norm_num)
  have s17 : Real.sqrt 289 = 17 := by
    rw [show (289 : ℝ) = 17 ^ 2 by norm_num]; exact Real.sqrt_sq (by norm_num)
  unfold DasCall.path DasCall.legs
  rw [exRndRca_method]
  have : q = 0 ∨ q = 1 ∨ q = 2 ∨ q = 3 := by omega
  rcases this with rfl | rfl | rfl | rfl <;>
    norm_num [norm3, DasCall.colLeg, DasCall.rowLeg, exRndRca, rndView, gapTo, DasCall.xo, DasCall.yo,
      DasCall.zo, s10, s26, s17]

theorem exRndRca_pos (q : ℕ) (hq : q < 4) : exRndRca.position (rndView 53) 0 q =
    ((if q < 2 then 10 else 26 : ℕ) : ℝ) + ((if q % 2 = 0 then 17 else 10 : ℕ) : ℝ) + 1 / 2 := by
  unfold DasCall.position DasCall.delays
  rw [exRndRca_path q hq, exRndRca_method,
    if_neg (show ¬ DASType.rcaColtx = DASType.saft by decide)]
  show ((_ : ℝ) * 1000 / 1000 + 1 * (1 / 2)) / 1 = _
  ring

theorem exRndRca_err (q : ℕ) (hq : q < 4) : exRndRca.posErr (rndView 53) 0 q < 1 / 10 ^ 12 := by
  unfold DasCall.posErr DasCall.extent DasCall.delays
  rw [exRndRca_path q hq, exRndRca_method,
    if_neg (show ¬ DASType.rcaColtx = DASType.saft by decide)]
  show (((1 - (1 / 2 : ℝ) ^ 53) ^ 11)⁻¹ - 1) * ((_ * 1000 / 1000 + 1 * |1 / 2|) / 1) + 0 * _ < _
  have : q = 0 ∨ q = 1 ∨ q = 2 ∨ q = 3 := by omega
  rcases this with rfl | rfl | rfl | rfl <;> norm_num

theorem exRndRca_normal (q : ℕ) : exRndRca.Normal (rndView 53) 0 q :=
  ⟨trivial, by show (0 : ℝ) < 1000; norm_num, trivial, by show (0 : ℝ) < 1; norm_num,
    fun _ => ⟨trivial, trivial, trivial, trivial⟩, ⟨rnd_clear _, rnd_clear _, rnd_clear _, rnd_clear _⟩,
    ⟨rnd_clear _, rnd_clear _, rnd_clear _, rnd_clear _⟩, rnd_clear _, rnd_clear _, rnd_clear _, rnd_clear _⟩

/-- A half integer is not near an integer. -/
theorem half_far (a : ℕ) (m : ℤ) : (1 / 2 : ℝ) ≤ |(a : ℝ) + 1 / 2 - m| := by
  rcases le_or_gt m (a : ℤ) with h | h
  · have : (m : ℝ) ≤ a := by exact_mod_cast h
    rw [abs_of_nonneg (by linarith)]; linarith
  · have : (a : ℝ) + 1 ≤ m := by exact_mod_cast h
    rw [abs_of_nonpos (by linarith)]; linarith

theorem truncR_half (a : ℕ) : truncR ((a : ℝ) + 1 / 2) = a := by
  unfold truncR
  rw [if_pos (by positivity), Int.floor_eq_iff]
  push_cast
  constructor <;> linarith

-- a complete run that meets the hypotheses of C90_image (and of C90_position for every A-scan): the
-- samples 27, 20 and 36 of the A-scans 0, 1 and 3 are added, sample 43 of A-scan 2 is outside
example : ∃ as s', Act.abort ∉ as ∧ exRndRca.Sized ⟨1, fun _ => ⟨9⟩⟩ ∧ exRndRca.Reads ∧
    exRndRca.drv.Run 2 ⟨1, fun _ => ⟨9⟩⟩ as s' ∧
    |(s'.mem.data 0).v - (27 / 3 + (40 + 20) / 3 + (120 + 36) / 3)| ≤ 1 / 10 ^ 10 := by
  have hs : exRndRca.Sized ⟨1, fun _ => ⟨9⟩⟩ := by
    refine ⟨?_, ?_, ?_, ?_, ?_, ?_⟩ <;> simp [exRndRca, DasCall.scans, DasCall.method]
  have hr : exRndRca.Reads := .inr (.inr ⟨by decide, by decide, by decide⟩)
  have hsc : exRndRca.scans = 4 := by
    unfold DasCall.scans
    rw [exRndRca_method, if_neg (by decide)]
    rfl
  have hdef : ∀ n, n < exRndRca.No → ∃ k, exRndRca.Index n k := by
    intro n hn
    have : n = 0 := by have : n < 1 := hn; omega
    subst this
    refine ⟨fun q => truncR (exRndRca.dpTime 0 q *. fsKhz exRndRca.dt).v, fun q hq => ?_⟩
    rw [hsc] at hq
    have h1 := position_err (rndLaws 53) rnd_u (exRndRca_normal q) (n := 0) (q := q) trivial
    have h2 := exRndRca_err q hq
    have h3 := truncR_sub_lt (exRndRca.dpTime 0 q *. fsKhz exRndRca.dt).v
    rw [exRndRca_pos q hq] at h1
    show castIdx .signed (some (truncR (exRndRca.dpTime 0 q *. fsKhz exRndRca.dt).v)) =
      .ok (truncR (exRndRca.dpTime 0 q *. fsKhz exRndRca.dt).v)
    change |(exRndRca.dpTime 0 q *. fsKhz exRndRca.dt).v - _| ≤ _ at h1
    generalize (exRndRca.dpTime 0 q *. fsKhz exRndRca.dt).v = x at h1 h3 ⊢
    have hx : |x| ≤ 60 := by
      have : q = 0 ∨ q = 1 ∨ q = 2 ∨ q = 3 := by omega
      rw [abs_le] at h1 ⊢
      rcases this with rfl | rfl | rfl | rfl <;> norm_num at h1 h2 <;> constructor <;> linarith [h1.1, h1.2]
    rw [abs_lt] at h3
    rw [abs_le] at hx
    have z1 : (-100 : ℝ) < truncR x := by linarith [h3.1, hx.1]
    have z2 : (truncR x : ℝ) < 100 := by linarith [h3.2, hx.2]
    have z1' : (-100 : ℤ) < truncR x := by exact_mod_cast z1
    have z2' : truncR x < (100 : ℤ) := by exact_mod_cast z2
    have hfit : IdxTy.signed.fits (truncR x) = true := by
      simp only [IdxTy.fits, decide_eq_true_eq]
      omega
    simp only [castIdx, hfit, if_true]
  obtain ⟨_, _, as, s', g1, g2⟩ := C30_terminates hs hr hdef 2
  refine ⟨as, s', g1, hs, hr, g2, ?_⟩
  have := C90_image (rndLaws 53) rnd_u hs hr hdef (by simp [exRndRca, codeOf]) 2 (by omega) as g1 s' g2 0
    (by simp [exRndRca]) trivial (fun q _ => exRndRca_normal q) (by
      intro q hq m
      rw [hsc] at hq
      have h1 := exRndRca_err q hq
      rw [exRndRca_pos q hq, ← Nat.cast_add]
      have := half_far ((if q < 2 then 10 else 26) + (if q % 2 = 0 then 17 else 10)) m
      have h3 : (1 : ℝ) / 10 ^ 12 < 1 / 2 := by norm_num
      linarith)
  rw [hsc] at this
  simp only [Finset.sum_range_succ, Finset.sum_range_zero] at this
  rw [exRndRca_pos 0 (by norm_num), exRndRca_pos 1 (by norm_num), exRndRca_pos 2 (by norm_num),
    exRndRca_pos 3 (by norm_num)] at this
  simp only [← Nat.cast_add, truncR_half] at this
  simp only [sampleAt, exRndRca, rndView] at this
  have t1 : Int.toNat 27 = 27 := rfl
  have t2 : Int.toNat 20 = 20 := rfl
  have t3 : Int.toNat 36 = 36 := rfl
  norm_num [t1, t2, t3] at this
  norm_num
  rw [abs_le] at this ⊢
  constructor
  · linarith [this.1]
  · linarith [this.2]

end Dream
