import Verif.RoundErr
import Verif.ClaimsKernel
import Verif.ClaimsReal
import Verif.ClaimsThreads
import Mathlib.Tactic.NormNum
import Mathlib.Data.List.Induction

/-
C74: accuracy of the computed responses in floating point (flat transducers).
-/

namespace Dream
open Arith

variable {F : Type} [Arith F] {Φ : FloatView F}

/-! ### Relative closeness of numbers of any sign -/

/-- `x` is `y` up to `k` roundings. -/
def Rel (u : ℝ) (k : ℕ) (x y : ℝ) : Prop :=
  ∃ θ, x = y * θ ∧ (1 - u) ^ k ≤ θ ∧ θ * (1 - u) ^ k ≤ 1

/-- Relative error that `k` roundings can cause. -/
noncomputable def relErr (u : ℝ) (k : ℕ) : ℝ := ((1 - u) ^ k)⁻¹ - 1

section Rel
variable {u : ℝ} {k l : ℕ} {x y x' y' z : ℝ}

theorem Rel.of_near (h0 : 0 ≤ u) (h1 : u < 1) (h : Near u k x y) : Rel u k x y := by
  have hk : 0 < (1 - u) ^ k := pow_pos (by linarith) k
  rcases h.1.lt_or_eq with hy | hy
  · refine ⟨x / y, by field_simp, ?_, ?_⟩
    · rw [le_div_iff₀ hy, mul_comm]; exact h.2.1
    · rw [div_mul_eq_mul_div, div_le_one hy]; exact h.2.2
  · have hx : x = 0 := by
      have h2 := h.2.1
      have h3 := h.2.2
      rw [← hy] at h2 h3
      rw [zero_mul] at h2
      have : x ≤ 0 := by
        by_contra hc
        have := mul_pos (not_le.1 hc) hk
        linarith
      linarith
    have hle : (1 - u) ^ k ≤ 1 := pow_le_one₀ (by linarith) (by linarith)
    exact ⟨1, by rw [hx, ← hy]; ring, hle, by rw [one_mul]; exact hle⟩

theorem Rel.near (hy : 0 ≤ y) (h : Rel u k x y) : Near u k x y := by
  obtain ⟨θ, rfl, g1, g2⟩ := h
  refine ⟨hy, mul_le_mul_of_nonneg_left g1 hy, ?_⟩
  rw [mul_assoc]
  exact mul_le_of_le_one_right hy g2

theorem Rel.of_rnd (h0 : 0 ≤ u) (_h1 : u < 1) (h : |x - y| ≤ u * |y|) : Rel u 1 x y := by
  by_cases hy : y = 0
  · subst hy
    rw [abs_zero, mul_zero, sub_zero] at h
    have : x = 0 := abs_eq_zero.1 (le_antisymm h (abs_nonneg x))
    exact ⟨1, by rw [this]; ring, by rw [pow_one]; linarith, by rw [pow_one]; linarith⟩
  · refine ⟨x / y, by field_simp, ?_, ?_⟩
    all_goals
      have h2 : |x / y - 1| ≤ u := by
        rw [show x / y - 1 = (x - y) / y by field_simp, abs_div, div_le_iff₀ (abs_pos.2 hy)]
        exact h
      rw [abs_le] at h2
      rw [pow_one]
    · linarith
    · have h3 : x / y * (1 - u) ≤ (1 + u) * (1 - u) := mul_le_mul_of_nonneg_right (by linarith) (by linarith)
      nlinarith

theorem Rel.refl (h0 : 0 ≤ u) (h1 : u < 1) (x : ℝ) (k : ℕ) : Rel u k x x := by
  have hle : (1 - u) ^ k ≤ 1 := pow_le_one₀ (by linarith) (by linarith)
  exact ⟨1, by ring, hle, by rw [one_mul]; exact hle⟩

theorem Rel.trans (_h0 : 0 ≤ u) (h1 : u < 1) (h : Rel u k x y) (h' : Rel u l y z) :
    Rel u (k + l) x z := by
  obtain ⟨θ, rfl, a1, a2⟩ := h
  obtain ⟨θ', rfl, b1, b2⟩ := h'
  have hk : 0 ≤ (1 - u) ^ k := pow_nonneg (by linarith) k
  have hl : 0 ≤ (1 - u) ^ l := pow_nonneg (by linarith) l
  refine ⟨θ * θ', by ring, ?_, ?_⟩
  · rw [pow_add]; exact mul_le_mul a1 b1 hl (hk.trans a1)
  · rw [pow_add]
    calc θ * θ' * ((1 - u) ^ k * (1 - u) ^ l) = (θ * (1 - u) ^ k) * (θ' * (1 - u) ^ l) := by ring
      _ ≤ 1 * 1 := mul_le_mul a2 b2 (mul_nonneg (hl.trans b1) hl) zero_le_one
      _ = 1 := one_mul 1

theorem Rel.mono (h0 : 0 ≤ u) (h1 : u < 1) (hkl : k ≤ l) (h : Rel u k x y) : Rel u l x y := by
  obtain ⟨d, rfl⟩ := Nat.exists_eq_add_of_le hkl
  exact h.trans h0 h1 (Rel.refl h0 h1 y d)

theorem Rel.mul (_h0 : 0 ≤ u) (h1 : u < 1) (h : Rel u k x y) (h' : Rel u l x' y') :
    Rel u (k + l) (x * x') (y * y') := by
  obtain ⟨θ, rfl, a1, a2⟩ := h
  obtain ⟨θ', rfl, b1, b2⟩ := h'
  have hk : 0 ≤ (1 - u) ^ k := pow_nonneg (by linarith) k
  have hl : 0 ≤ (1 - u) ^ l := pow_nonneg (by linarith) l
  refine ⟨θ * θ', by ring, ?_, ?_⟩
  · rw [pow_add]; exact mul_le_mul a1 b1 hl (hk.trans a1)
  · rw [pow_add]
    calc θ * θ' * ((1 - u) ^ k * (1 - u) ^ l) = (θ * (1 - u) ^ k) * (θ' * (1 - u) ^ l) := by ring
      _ ≤ 1 * 1 := mul_le_mul a2 b2 (mul_nonneg (hl.trans b1) hl) zero_le_one
      _ = 1 := one_mul 1

theorem Rel.div (h0 : 0 ≤ u) (h1 : u < 1) (h : Rel u k x y) (h' : Rel u l x' y') :
    Rel u (k + l) (x / x') (y / y') := by
  rw [div_eq_mul_inv, div_eq_mul_inv]
  refine h.mul h0 h1 ?_
  obtain ⟨θ', rfl, b1, b2⟩ := h'
  have hl : 0 < (1 - u) ^ l := pow_pos (by linarith) l
  have ht : 0 < θ' := hl.trans_le b1
  refine ⟨θ'⁻¹, by rw [mul_inv], ?_, ?_⟩
  · rw [le_inv_comm₀ hl ht]
    rw [inv_eq_one_div, le_div_iff₀ hl]
    exact b2
  · rw [inv_mul_le_iff₀ ht, mul_one]; exact b1

theorem Rel.ne (h1 : u < 1) (hy : y ≠ 0) (h : Rel u k x y) : x ≠ 0 := by
  obtain ⟨θ, rfl, a1, _⟩ := h
  have hk : 0 < (1 - u) ^ k := pow_pos (by linarith) k
  exact mul_ne_zero hy (hk.trans_le a1).ne'

theorem Rel.abs_sub (h0 : 0 ≤ u) (h1 : u < 1) (h : Rel u k x y) : |x - y| ≤ relErr u k * |y| := by
  obtain ⟨θ, rfl, a1, a2⟩ := h
  have hk : 0 < (1 - u) ^ k := pow_pos (by linarith) k
  have hk1 : (1 - u) ^ k ≤ 1 := pow_le_one₀ (by linarith) (by linarith)
  rw [show y * θ - y = (θ - 1) * y by ring, abs_mul]
  refine mul_le_mul_of_nonneg_right ?_ (abs_nonneg y)
  unfold relErr
  generalize hg : (1 - u) ^ k = g at *
  have ht : θ ≤ g⁻¹ := by rw [inv_eq_one_div, le_div_iff₀ hk]; exact a2
  have h2 : 1 - g ≤ g⁻¹ - 1 := by
    have : g * g⁻¹ = 1 := mul_inv_cancel₀ hk.ne'
    have h3 : 1 ≤ g⁻¹ := (one_le_inv₀ hk).2 hk1
    nlinarith
  rw [abs_le]
  constructor <;> linarith

/-- At most a factor of two is lost. -/
theorem Rel.half (h1 : u ≤ 1 / 32) (hk : k ≤ 20) (h : Rel u k x y) :
    |y| ≤ 2 * |x| ∧ |x| ≤ 2 * |y| := by
  obtain ⟨θ, rfl, a1, a2⟩ := h
  have hp : (1 / 2 : ℝ) ≤ (1 - u) ^ k := by
    by_cases hu : u ≤ 0
    · have : (1 : ℝ) ≤ (1 - u) ^ k := one_le_pow₀ (by linarith)
      linarith
    · have e1 : (31 / 32 : ℝ) ^ 20 ≤ (1 - u) ^ 20 := pow_le_pow_left₀ (by norm_num) (by linarith) 20
      have e2 : (1 - u) ^ 20 ≤ (1 - u) ^ k :=
        pow_le_pow_of_le_one (by linarith) (by linarith) hk
      have e3 : (1 / 2 : ℝ) ≤ (31 / 32 : ℝ) ^ 20 := by norm_num
      linarith
  have ht : (1 / 2 : ℝ) ≤ θ := hp.trans a1
  have ht2 : θ ≤ 2 := by
    by_contra hc
    have := mul_le_mul (not_le.1 hc).le hp (by norm_num) (by linarith)
    have h3 : 2 < θ := not_le.1 hc
    nlinarith
  rw [abs_mul, abs_of_pos (by linarith : (0 : ℝ) < θ)]
  have := abs_nonneg y
  constructor <;> nlinarith

end Rel

/-- Zero, or at least twice the underflow limit. -/
def FloatView.Clear (Φ : FloatView F) (x : ℝ) : Prop := x = 0 ∨ 2 * Φ.tiny ≤ |x|

section Ops
variable (L : FloatLaws Φ) (hu : Φ.u ≤ 1 / 32)
include L hu

theorem u_lt : Φ.u < 1 := by linarith

theorem Rel.safe {k : ℕ} {x y : ℝ} (hk : k ≤ 20) (h : Rel Φ.u k x y) (hc : Φ.Clear y) : Φ.Safe x := by
  rcases hc with rfl | hc
  · obtain ⟨θ, rfl, _, _⟩ := h
    exact .inl (zero_mul θ)
  · have := (h.half hu hk).1
    right; linarith

theorem rel_mul {k l : ℕ} {a b : F} {x y : ℝ} (hkl : k + l ≤ 20) (hf : Φ.fin (a *. b))
    (ha : Rel Φ.u k (Φ.val a) x) (hb : Rel Φ.u l (Φ.val b) y) (hc : Φ.Clear (x * y)) :
    Rel Φ.u (k + l + 1) (Φ.val (a *. b)) (x * y) := by
  have h1 := u_lt L hu
  have h0 := L.u_nonneg
  have hm := ha.mul h0 h1 hb
  have := Rel.of_rnd h0 h1 ((L.mul a b hf).2.2.2 (hm.safe L hu hkl hc))
  have := this.trans h0 h1 hm
  rwa [Nat.add_comm] at this

theorem rel_div {k l : ℕ} {a b : F} {x y : ℝ} (hkl : k + l ≤ 20) (hf : Φ.fin (a /. b)) (hb' : Φ.fin b)
    (hy : y ≠ 0)
    (ha : Rel Φ.u k (Φ.val a) x) (hb : Rel Φ.u l (Φ.val b) y) (hc : Φ.Clear (x / y)) :
    Rel Φ.u (k + l + 1) (Φ.val (a /. b)) (x / y) := by
  have h1 := u_lt L hu
  have h0 := L.u_nonneg
  have hm := ha.div h0 h1 hb
  have := Rel.of_rnd h0 h1 (((L.div a b hf).2 hb' (hb.ne h1 hy)).2 (hm.safe L hu hkl hc))
  have := this.trans h0 h1 hm
  rwa [Nat.add_comm] at this

theorem rel_small (n : ℕ) (hn : n ≤ 1000) : Rel Φ.u 0 (Φ.val (lit n)) n := by
  rw [(L.small n hn).2]
  exact Rel.refl L.u_nonneg (u_lt L hu) _ 0

/-- A square of a rounded difference. -/
theorem near_sq {a : F} {X : ℝ} (hf : Φ.fin (a *. a)) (ha : |Φ.val a - X| ≤ Φ.u * |X|)
    (hc : Φ.Clear (X ^ 2)) : Near Φ.u 3 (Φ.val (a *. a)) (X ^ 2) := by
  have h1 := u_lt L hu
  have h0 := L.u_nonneg
  rw [sq] at hc ⊢
  have hr := Rel.of_rnd h0 h1 ha
  exact (rel_mul L hu (by norm_num) hf hr hr hc).near (mul_self_nonneg X)

/-- The computed distance. -/
theorem dist3_near {a b c : F} {X Y Z : ℝ} (hf : Φ.fin (dist3 a b c))
    (ha : |Φ.val a - X| ≤ Φ.u * |X|) (hb : |Φ.val b - Y| ≤ Φ.u * |Y|) (hc : |Φ.val c - Z| ≤ Φ.u * |Z|)
    (cx : Φ.Clear (X ^ 2)) (cy : Φ.Clear (Y ^ 2)) (cz : Φ.Clear (Z ^ 2)) :
    Near Φ.u 4 (Φ.val (dist3 a b c)) (Real.sqrt (X ^ 2 + Y ^ 2 + Z ^ 2)) := by
  have h1 := u_lt L hu
  have h0 := L.u_nonneg
  unfold dist3 at hf ⊢
  obtain ⟨f1, e1⟩ := L.sqrt _ hf
  obtain ⟨f2, f3, e2⟩ := L.add _ _ f1
  obtain ⟨f4, f5, e3⟩ := L.add _ _ f2
  have n1 := near_sq L hu f4 ha cx
  have n2 := near_sq L hu f5 hb cy
  have n3 := near_sq L hu f3 hc cz
  have m1 := n1.add n2
  have m2 := (Near.of_rnd h0 h1.le (m1.nonneg h1.le) e3).trans h0 h1.le m1
  have m3 := m2.add (n3.mono h0 h1.le (by norm_num : 3 ≤ 1 + 3))
  have m4 := (Near.of_rnd h0 h1.le (m3.nonneg h1.le) e2).trans h0 h1.le m3
  have m5 := Near.sqrt (k := 3) h0 h1.le (m4.mono h0 h1.le (by norm_num))
  have m6 : Near Φ.u 1 (Φ.val (Arith.sqrt (a *. a +. b *. b +. c *. c)))
      (Real.sqrt (Φ.val (a *. a +. b *. b +. c *. c))) := by
    refine Near.of_rnd h0 h1.le (Real.sqrt_nonneg _) ?_
    rw [abs_of_nonneg (Real.sqrt_nonneg _)]
    exact e1
  exact m6.trans h0 h1.le m5

theorem two_pi : Φ.fin (lit 2 *. Arith.pi) ∧ Rel Φ.u 2 (Φ.val (lit 2 *. Arith.pi)) (2 * Real.pi) := by
  have h1 := u_lt L hu
  have h0 := L.u_nonneg
  have hp := Rel.of_rnd h0 h1 L.pi.2
  have h2 : Φ.fin (lit 2) ∧ Φ.val (lit 2) = 2 := by
    have := L.small 2 (by norm_num)
    push_cast at this
    exact this
  have hf : Φ.fin (lit 2 *. Arith.pi) := by
    refine L.mul_fin _ _ h2.1 L.pi.1 ?_
    have := (hp.half hu (by norm_num)).2
    rw [abs_of_pos Real.pi_pos] at this
    have h3 := L.huge_ge
    have h4 := Real.pi_le_four
    rw [abs_mul, h2.2, abs_of_pos (by norm_num : (0 : ℝ) < 2)]
    linarith
  refine ⟨hf, ?_⟩
  have r2 : Rel Φ.u 0 (Φ.val (lit 2)) 2 := by rw [h2.2]; exact Rel.refl h0 h1 _ 0
  have := rel_mul L hu (by norm_num) hf r2 hp (by
    right
    have h5 := L.tiny_le
    have h6 := Real.two_le_pi
    rw [abs_of_pos (by linarith)]
    linarith)
  exact this

/-- The computed amplitude. -/
theorem amp_rel {w ds r dt : F} {W S R : ℝ} (hW : Rel Φ.u 1 (Φ.val w) W) (hS : Rel Φ.u 1 (Φ.val ds) S)
    (hR : Near Φ.u 4 (Φ.val r) R) (hR0 : 0 < R) (hf : Φ.fin (amp w ds r dt)) (hfr : Φ.fin r)
    (hft : Φ.fin dt) (ht : Φ.val dt ≠ 0) (c3 : Φ.Clear (W * S))
    (c4 : Φ.Clear (2 * Real.pi * R)) (c4' : 2 * (2 * Real.pi * R) ≤ Φ.huge)
    (c5 : Φ.Clear (W * S / (2 * Real.pi * R))) (c6 : Φ.Clear (W * S / (2 * Real.pi * R) / Φ.val dt))
    (c7 : Φ.Clear (W * S / (2 * Real.pi * R) / Φ.val dt * 1000)) :
    Rel Φ.u 13 (Φ.val (amp w ds r dt)) (W * S / (2 * Real.pi * R) / Φ.val dt * 1000) := by
  have h1 := u_lt L hu
  have h0 := L.u_nonneg
  unfold amp at hf ⊢
  obtain ⟨f1, _, _⟩ := L.mul _ _ hf
  obtain ⟨f2, _⟩ := L.div _ _ f1
  obtain ⟨f3, _⟩ := L.div _ _ f2
  obtain ⟨p1, p2⟩ := two_pi L hu
  have hr := Rel.of_near h0 h1 hR
  have hpos : 0 < 2 * Real.pi * R := by have := Real.pi_pos; positivity
  have fd : Φ.fin (lit 2 *. Arith.pi *. r) := by
    refine L.mul_fin _ _ p1 hfr ?_
    have := ((p2.mul h0 h1 hr).half hu (by norm_num)).2
    rw [abs_of_pos hpos] at this
    linarith
  have a1 := rel_mul L hu (by norm_num) f3 hW hS c3
  have a2 := rel_mul L hu (by norm_num) fd p2 hr c4
  have a3 := rel_div L hu (by norm_num) f2 fd hpos.ne' a1 a2 c5
  have a4 := rel_div L hu (by norm_num) f1 hft ht a3 (Rel.refl h0 h1 (Φ.val dt) 0) c6
  have hk : Rel Φ.u 0 (Φ.val (lit 1000)) 1000 := by
    have := rel_small L hu 1000 (le_refl _)
    push_cast at this
    exact this
  exact rel_mul L hu (by norm_num) hf a4 hk c7

theorem relErr_succ (k : ℕ) : (1 + relErr Φ.u k) * (1 + Φ.u) - 1 ≤ relErr Φ.u (k + 1) := by
  have h1 := u_lt L hu
  have h0 := L.u_nonneg
  have hg : 0 < (1 - Φ.u) ^ k := pow_pos (by linarith) k
  unfold relErr
  rw [pow_succ, mul_inv]
  have hi : 1 + Φ.u ≤ (1 - Φ.u)⁻¹ := by
    rw [inv_eq_one_div, le_div_iff₀ (by linarith)]
    nlinarith
  have := mul_le_mul_of_nonneg_left hi (inv_nonneg.2 hg.le)
  linarith

theorem relErr_nonneg (k : ℕ) : 0 ≤ relErr Φ.u k := by
  have h1 := u_lt L hu
  have h0 := L.u_nonneg
  unfold relErr
  have := (one_le_inv₀ (pow_pos (by linarith : 0 < 1 - Φ.u) k)).2
    (pow_le_one₀ (by linarith) (by linarith))
  linarith

/-- The computed arrival time in samples. -/
theorem arrival_err {r cp delay dt : F} {R : ℝ} (hR : Near Φ.u 4 (Φ.val r) R)
    (hf : Φ.fin (arrival r cp delay dt)) (hfc : Φ.fin cp) (hc : 0 < Φ.val cp) (hft : Φ.fin dt)
    (ht : 0 < Φ.val dt) (c8 : Φ.Clear (R * 1000)) (c9 : Φ.Clear (R * 1000 / Φ.val cp)) :
    Φ.fin r ∧ |Φ.val (arrival r cp delay dt) - (R * 1000 / Φ.val cp - Φ.val delay) / Φ.val dt| ≤
      relErr Φ.u 8 * ((R * 1000 / Φ.val cp + |Φ.val delay|) / Φ.val dt) + Φ.eta := by
  have h1 := u_lt L hu
  have h0 := L.u_nonneg
  unfold arrival at hf ⊢
  obtain ⟨f1, e1⟩ := L.div _ _ hf
  obtain ⟨f2, f3, e2⟩ := L.sub _ _ f1
  obtain ⟨f4, _⟩ := L.div _ _ f2
  obtain ⟨f5, _, _⟩ := L.mul _ _ f4
  refine ⟨f5, ?_⟩
  have hr := Rel.of_near h0 h1 hR
  have hk : Rel Φ.u 0 (Φ.val (lit 1000)) 1000 := by
    have := rel_small L hu 1000 (le_refl _)
    push_cast at this
    exact this
  have a1 := rel_mul L hu (by norm_num) f4 hr hk c8
  have a2 := rel_div L hu (by norm_num) f2 hfc hc.ne' a1 (Rel.refl h0 h1 (Φ.val cp) 0) c9
  have hT : 0 ≤ R * 1000 / Φ.val cp := div_nonneg (by linarith [hR.1]) hc.le
  have b1 := a2.abs_sub h0 h1
  rw [abs_of_nonneg hT] at b1
  have b2 := (e1 hft ht.ne').1
  generalize Φ.val (r *. lit 1000 /. cp) = t at *
  generalize R * 1000 / Φ.val cp = T at *
  generalize Φ.val delay = D at *
  generalize Φ.val (r *. lit 1000 /. cp -. delay) = d at *
  generalize Φ.val ((r *. lit 1000 /. cp -. delay) /. dt) = q at *
  generalize Φ.val dt = s at *
  have k7 := relErr_succ L hu 6
  have k8 := relErr_succ L hu 7
  norm_num at k7 k8 b1
  have k6n := relErr_nonneg L hu 6
  have k7n := relErr_nonneg L hu 7
  generalize relErr Φ.u 6 = r6 at *
  generalize relErr Φ.u 7 = r7 at *
  generalize relErr Φ.u 8 = r8 at *
  -- difference
  have d1 : |t - D| ≤ (1 + r6) * T + |D| := by
    have g1 : |t| ≤ T + r6 * T := by
      have := abs_add_le T (t - T)
      rw [add_sub_cancel, abs_of_nonneg hT] at this
      linarith
    have := abs_sub t D
    linarith
  have r60 : 0 ≤ r6 * T := (abs_nonneg _).trans b1
  have d2 : |d - (T - D)| ≤ r7 * (T + |D|) := by
    have g1 : |d - (T - D)| ≤ |d - (t - D)| + |t - T| := by
      have e : d - (T - D) = (d - (t - D)) + (t - T) := by ring
      rw [e]; exact abs_add_le _ _
    have g2 := mul_le_mul_of_nonneg_left d1 h0
    have g3 : ((1 + r6) * (1 + Φ.u) - 1) * T ≤ r7 * T := mul_le_mul_of_nonneg_right (by linarith) hT
    have g4 : Φ.u * |D| ≤ r7 * |D| := by
      refine mul_le_mul_of_nonneg_right ?_ (abs_nonneg D)
      nlinarith
    nlinarith
  have d3 : |d| ≤ (1 + r7) * (T + |D|) := by
    have g1 : |d| ≤ |T - D| + |d - (T - D)| := by
      have := abs_add_le (T - D) (d - (T - D))
      rwa [add_sub_cancel] at this
    have g2 := abs_sub T D
    rw [abs_of_nonneg hT] at g2
    linarith
  have hA : 0 ≤ T + |D| := add_nonneg hT (abs_nonneg D)
  generalize T + |D| = A at *
  have g1 : |q - (T - D) / s| ≤ |q - d / s| + |d / s - (T - D) / s| := by
    have e : q - (T - D) / s = (q - d / s) + (d / s - (T - D) / s) := by ring
    rw [e]; exact abs_add_le _ _
  have g2 : |d / s - (T - D) / s| ≤ r7 * A / s := by
    rw [← sub_div, abs_div, abs_of_pos ht]
    exact div_le_div_of_nonneg_right d2 ht.le
  have g3 : |d / s| ≤ (1 + r7) * A / s := by
    rw [abs_div, abs_of_pos ht]
    exact div_le_div_of_nonneg_right d3 ht.le
  have g4 := mul_le_mul_of_nonneg_left g3 h0
  have g5 : ((1 + r7) * (1 + Φ.u) - 1) * (A / s) ≤ r8 * (A / s) :=
    mul_le_mul_of_nonneg_right (by linarith) (div_nonneg hA ht.le)
  have e1 : Φ.u * ((1 + r7) * A / s) + r7 * A / s = ((1 + r7) * (1 + Φ.u) - 1) * (A / s) := by ring
  linarith

end Ops

/-! ### Specification -/

/-- Exact distance between the observation point and the point `(x, y, 0)`. -/
noncomputable def FloatView.dist (Φ : FloatView F) (xo yo zo x y : F) : ℝ :=
  Real.sqrt ((Φ.val xo - Φ.val x) ^ 2 + (Φ.val yo - Φ.val y) ^ 2 + Φ.val zo ^ 2)

/-- Exact arrival time in samples. -/
noncomputable def FloatView.arrives (Φ : FloatView F) (p : Par F) (R : ℝ) : ℝ :=
  (R * 1000 / Φ.val p.cp - Φ.val p.delay) / Φ.val p.dt

/-- What the error of the arrival time is relative to. -/
noncomputable def FloatView.spread (Φ : FloatView F) (p : Par F) (R : ℝ) : ℝ :=
  (R * 1000 / Φ.val p.cp + |Φ.val p.delay|) / Φ.val p.dt

/-- Exact contribution of a cell of area dx dy at distance `R` to the Rayleigh integral. -/
noncomputable def FloatView.rayleigh (Φ : FloatView F) (w : ℝ) (p : Par F) (R : ℝ) : ℝ :=
  w * Φ.val p.v * (Φ.val p.dx * Φ.val p.dy) / (2 * Real.pi * R) / Φ.val p.dt * 1000

/-- The parameters are finite, `cp` and `dt` are positive, and nothing that is computed for a cell at
`(X, Y, Z)` from the observation point, at distance `R`, underflows or overflows. -/
structure FloatView.Normal (Φ : FloatView F) (w : ℝ) (p : Par F) (X Y Z R : ℝ) : Prop where
  fcp : Φ.fin p.cp
  cp : 0 < Φ.val p.cp
  fdt : Φ.fin p.dt
  dt : 0 < Φ.val p.dt
  pos : 0 < R
  x : Φ.Clear (X ^ 2)
  y : Φ.Clear (Y ^ 2)
  z : Φ.Clear (Z ^ 2)
  wv : Φ.Clear (w * Φ.val p.v)
  ds : Φ.Clear (Φ.val p.dx * Φ.val p.dy)
  num : Φ.Clear (w * Φ.val p.v * (Φ.val p.dx * Φ.val p.dy))
  den : Φ.Clear (2 * Real.pi * R)
  big : 2 * (2 * Real.pi * R) ≤ Φ.huge
  q1 : Φ.Clear (w * Φ.val p.v * (Φ.val p.dx * Φ.val p.dy) / (2 * Real.pi * R))
  q2 : Φ.Clear (w * Φ.val p.v * (Φ.val p.dx * Φ.val p.dy) / (2 * Real.pi * R) / Φ.val p.dt)
  q3 : Φ.Clear (Φ.rayleigh w p R)
  ms : Φ.Clear (R * 1000)
  time : Φ.Clear (R * 1000 / Φ.val p.cp)

/-- Weight of a flat transducer without focusing. -/
def Kern.flatWeight (Φ : FloatView F) : Kern F → Option ℝ
  | .rect w _ _ => some (Φ.val w)
  | .circ w _ => some (Φ.val w)
  | .line _ => some 1
  | _ => none

/-- Positions `(x, y)` of the cells of the rows at heights `ys`, in loop order. -/
def rowCells (row : F → Row F) (dx : F) (fuel : ℕ) : List F → Option (List (F × F))
  | [] => some []
  | y :: ys =>
    match visits dx (row y).xmax fuel (row y).x0, rowCells row dx fuel ys with
    | some xs, some r => some (xs.map (fun x => (x, y)) ++ r)
    | _, _ => none

/-- Positions of the cells the loops visit: `x` runs through x0, x0 + dx, ... while it is at most
xmax, for each `y` (the line is at `y = 0`). -/
def Kern.cells (k : Kern F) (p : Par F) (xo yo zo : F) (fuel : ℕ) : Option (List (F × F)) :=
  match k with
  | .line a => (visits p.dx (a /. lit 2) fuel (Arith.neg a /. lit 2 +. p.dx /. lit 2)).map
      (List.map fun x => (x, lit 0))
  | k => (visits (k.geo p xo yo zo).dy (k.geo p xo yo zo).ymax fuel (k.geo p xo yo zo).y0).bind
      (rowCells (k.geo p xo yo zo).row (k.geo p xo yo zo).dx fuel)

/-! ### Proofs -/

/-- The point computed for a cell. -/
def Kern.ptAt (k : Kern F) (p : Par F) (xo yo zo : F) (s : F × F) : Pt F :=
  ((k.geo p xo yo zo).row s.2).pt s.1

theorem rowsPoints_cells (row : F → Row F) (dx : F) (fuel : ℕ) (ys : List F) :
    rowsPoints row dx fuel ys =
      (rowCells row dx fuel ys).map (List.map fun s => (row s.2).pt s.1) := by
  induction ys with
  | nil => rfl
  | cons y ys ih =>
    simp only [rowsPoints, rowCells, ih, Row.points]
    cases visits dx (row y).xmax fuel (row y).x0 <;> cases rowCells row dx fuel ys <;>
      simp [Function.comp_def]

theorem points_cells (k : Kern F) (p : Par F) (xo yo zo : F) (fuel : ℕ) :
    k.points p xo yo zo fuel = (k.cells p xo yo zo fuel).map (List.map (k.ptAt p xo yo zo)) := by
  have sweep : ∀ g : Sweep F, g.points fuel =
      ((visits g.dy g.ymax fuel g.y0).bind (rowCells g.row g.dx fuel)).map
        (List.map fun s => (g.row s.2).pt s.1) := by
    intro g
    unfold Sweep.points
    cases visits g.dy g.ymax fuel g.y0 with
    | none => rfl
    | some ys => exact rowsPoints_cells _ _ _ _
  cases k with
  | line a =>
    simp only [Kern.points, Kern.cells, Row.points, lineRow, Option.map_map]
    congr 1
    funext l
    simp [Function.comp_def, Kern.ptAt, Kern.geo, lineRow]
  | rect w a b => exact sweep _
  | circ w R => exact sweep _
  | cylind w a b Rc => exact sweep _
  | rectF met f a b => exact sweep _
  | circF met f R => exact sweep _
  | sphere R Rc => exact sweep _

/-- A cell of a flat transducer. -/
theorem cell_facts (L : FloatLaws Φ) (hu : Φ.u ≤ 1 / 32) (k : Kern F) (w : ℝ)
    (hw : k.flatWeight Φ = some w) (p : Par F) (xo yo zo : F) (s : F × F) (hl : (∃ a, k = .line a) → s.2 = lit 0)
    (hc : ∃ i, Arith.rint (k.ptAt p xo yo zo s).arg = some i)
    (hn : Φ.Normal w p (Φ.val xo - Φ.val s.1) (Φ.val yo - Φ.val s.2) (Φ.val zo)
      (Φ.dist xo yo zo s.1 s.2)) :
    |((k.ptAt p xo yo zo s).idx : ℝ) - Φ.arrives p (Φ.dist xo yo zo s.1 s.2)| ≤
      1 / 2 + (relErr Φ.u 8 * Φ.spread p (Φ.dist xo yo zo s.1 s.2) + Φ.eta) ∧
    (Φ.fin (k.ptAt p xo yo zo s).ai →
      Rel Φ.u 13 (Φ.val (k.ptAt p xo yo zo s).ai) (Φ.rayleigh w p (Φ.dist xo yo zo s.1 s.2))) := by
  have h1 := u_lt L hu
  have h0 := L.u_nonneg
  -- shape of the point
  have hpt : ∃ (b : F) (W : F), (|Φ.val b - (Φ.val yo - Φ.val s.2)| ≤ Φ.u * |Φ.val yo - Φ.val s.2| ∨
        b = yo -. s.2) ∧ (Rel Φ.u 1 (Φ.val W) (w * Φ.val p.v) ∨ ∃ w', W = w' *. p.v ∧ Φ.val w' = w) ∧
      k.ptAt p xo yo zo s = ⟨dist3 (xo -. s.1) b zo, amp W (p.dx *. p.dy) (dist3 (xo -. s.1) b zo) p.dt,
        arrival (dist3 (xo -. s.1) b zo) p.cp p.delay p.dt⟩ := by
    cases k with
    | rect w' a b =>
      simp only [Kern.flatWeight, Option.some.injEq] at hw
      exact ⟨yo -. s.2, w' *. p.v, .inr rfl, .inr ⟨w', rfl, hw⟩, rfl⟩
    | circ w' R =>
      simp only [Kern.flatWeight, Option.some.injEq] at hw
      exact ⟨yo -. s.2, w' *. p.v, .inr rfl, .inr ⟨w', rfl, hw⟩, rfl⟩
    | line a =>
      simp only [Kern.flatWeight, Option.some.injEq] at hw
      refine ⟨yo, p.v, .inl ?_, .inl ?_, rfl⟩
      · rw [hl ⟨a, rfl⟩, L.zero.2, sub_zero, sub_self, abs_zero]
        exact mul_nonneg h0 (abs_nonneg _)
      · rw [← hw, one_mul]
        exact Rel.refl h0 h1 _ 1
    | _ => simp [Kern.flatWeight] at hw
  obtain ⟨b, W, hb, hW, hpt⟩ := hpt
  rw [hpt] at hc ⊢
  obtain ⟨i, hi⟩ := hc
  obtain ⟨fa, hia⟩ := L.rint _ _ hi
  simp only at fa hi hia ⊢
  -- finite intermediate results
  have fr : Φ.fin (dist3 (xo -. s.1) b zo) := by
    have g := fa
    unfold arrival at g
    exact (L.mul _ _ (L.div _ _ (L.sub _ _ (L.div _ _ g).1).1).1).1
  obtain ⟨f1, f2, f3⟩ : Φ.fin (xo -. s.1) ∧ Φ.fin b ∧ Φ.fin zo := by
    have g := fr
    unfold dist3 at g
    obtain ⟨g1, g2, _⟩ := L.add _ _ (L.sqrt _ g).1
    obtain ⟨g3, g4, _⟩ := L.add _ _ g1
    exact ⟨(L.mul _ _ g3).1, (L.mul _ _ g4).1, (L.mul _ _ g2).1⟩
  have hb' : |Φ.val b - (Φ.val yo - Φ.val s.2)| ≤ Φ.u * |Φ.val yo - Φ.val s.2| := by
    rcases hb with hb | rfl
    · exact hb
    · exact (L.sub _ _ f2).2.2
  have hR := dist3_near L hu fr (L.sub _ _ f1).2.2 hb' (by
    rw [sub_self, abs_zero]; exact mul_nonneg h0 (abs_nonneg (Φ.val zo))) hn.x hn.y hn.z
  change Near Φ.u 4 _ (Φ.dist xo yo zo s.1 s.2) at hR
  constructor
  · have := (arrival_err L hu hR fa hn.fcp hn.cp hn.fdt hn.dt hn.ms hn.time).2
    have h2 := rintR_near (Φ.val (arrival (dist3 (xo -. s.1) b zo) p.cp p.delay p.dt))
    have e : (Pt.idx ⟨dist3 (xo -. s.1) b zo, amp W (p.dx *. p.dy) (dist3 (xo -. s.1) b zo) p.dt,
        arrival (dist3 (xo -. s.1) b zo) p.cp p.delay p.dt⟩) =
        rintR (Φ.val (arrival (dist3 (xo -. s.1) b zo) p.cp p.delay p.dt)) := by
      simp only [Pt.idx, hi, Option.getD_some, hia]
    rw [e]
    rw [abs_sub_comm] at h2
    generalize Φ.val (arrival (dist3 (xo -. s.1) b zo) p.cp p.delay p.dt) = A at *
    have h3 := abs_add_le ((rintR A : ℝ) - A) (A - Φ.arrives p (Φ.dist xo yo zo s.1 s.2))
    rw [sub_add_sub_cancel] at h3
    unfold FloatView.spread
    unfold FloatView.arrives at h3 ⊢
    linarith
  · intro fai
    have g := fai
    unfold amp at g
    obtain ⟨g1, _⟩ := L.mul _ _ g
    obtain ⟨g2, g3, _⟩ := L.mul _ _ (L.div _ _ (L.div _ _ g1).1).1
    have hS := rel_mul L hu (by norm_num) g3 (Rel.refl h0 h1 (Φ.val p.dx) 0)
      (Rel.refl h0 h1 (Φ.val p.dy) 0) hn.ds
    have hW' : Rel Φ.u 1 (Φ.val W) (w * Φ.val p.v) := by
      rcases hW with hW | ⟨w', rfl, rfl⟩
      · exact hW
      · exact rel_mul L hu (by norm_num) g2 (Rel.refl h0 h1 (Φ.val w') 0)
          (Rel.refl h0 h1 (Φ.val p.v) 0) hn.wv
    exact amp_rel L hu hW' hS hR hn.pos fai fr hn.fdt hn.dt.ne' hn.num hn.den hn.big hn.q1 hn.q2 hn.q3

/-- Rounded summation of a list. -/
theorem foldl_err (L : FloatLaws Φ) {α : Type} (f : α → F) (e : α → ℝ) {κ : ℝ} (hκ : 1 ≤ κ) (l : List α)
    (h : ∀ a ∈ l, Φ.fin (f a) → |Φ.val (f a) - e a| ≤ (κ - 1) * |e a|) (s0 : F)
    (hf : Φ.fin (l.foldl (fun s a => s +. f a) s0)) : Φ.fin s0 ∧
    |Φ.val (l.foldl (fun s a => s +. f a) s0) - (Φ.val s0 + (l.map e).sum)| ≤
      (κ * (1 + Φ.u) ^ l.length - 1) * (|Φ.val s0| + (l.map fun a => |e a|).sum) := by
  induction l using List.reverseRecOn with
  | nil =>
    refine ⟨hf, ?_⟩
    simp only [List.foldl_nil, List.map_nil, List.sum_nil, add_zero, sub_self, abs_zero, List.length_nil,
      pow_zero, mul_one]
    exact mul_nonneg (by linarith) (abs_nonneg _)
  | append_singleton l a ih =>
    rw [List.foldl_append, List.foldl_cons, List.foldl_nil] at hf ⊢
    obtain ⟨g1, g2, g3⟩ := L.add _ _ hf
    obtain ⟨i1, i2⟩ := ih (fun b hb => h b (List.mem_append_left _ hb)) g1
    refine ⟨i1, ?_⟩
    have ht := h a (by simp) g2
    rw [List.map_append, List.map_append, List.sum_append, List.sum_append, List.length_append, ← add_assoc,
      ← add_assoc]
    simp only [List.map_cons, List.map_nil, List.sum_cons, List.sum_nil, add_zero, List.length_cons,
      List.length_nil, zero_add, pow_succ, pow_zero, pow_add, one_mul]
    have hS : |Φ.val s0 + (l.map e).sum| ≤ |Φ.val s0| + (l.map fun a => |e a|).sum := by
      refine (abs_add_le _ _).trans (add_le_add le_rfl ?_)
      clear * -
      induction l with
      | nil => simp
      | cons b l ih =>
        simp only [List.map_cons, List.sum_cons]
        exact (abs_add_le _ _).trans (add_le_add le_rfl ih)
    have := acc_step (η := 0) (c := 0) L.u_nonneg le_rfl hκ le_rfl g3 (by rw [add_zero]; exact ht) i2 hS
      (geom_ge_one L.u_nonneg l.length) (by rw [mul_zero, add_zero])
    rw [mul_zero, add_zero] at this
    exact this

theorem fold_hits (f : F × F → Pt F) (nt i : ℕ) (hi : i < nt) (src : List (F × F)) (s0 : F) :
    ((src.map f).filter (Pt.inRange nt)).foldl (contribution none i) s0 =
      (src.filter fun s => (f s).idx = (i : ℤ)).foldl (fun s a => s +. (f a).ai) s0 := by
  rw [List.foldl_filter, List.foldl_filter, List.foldl_map]
  congr 1
  funext s a
  simp only [contribution, Pt.inRange, decide_eq_true_eq]
  by_cases h : (f a).idx = (i : ℤ)
  · rw [if_pos h, if_pos (by rw [h]; omega)]
  · rw [if_neg h, ite_self]

/-- C74: floating point accuracy of the flat transducers without focusing.  If the kernel is defined
and nothing underflows or overflows, there are arrival samples `idx`, each within half a sample plus
8 roundings of the exact arrival time of the cell at its stored position (and equal to the exact
sample unless the exact time is that close to the middle between two samples), such that every finite
sample of the response is the sum of the exact Rayleigh contributions of the cells that arrive in it,
up to 13 roundings for each contribution and one for each addition. -/
theorem C74_response (L : FloatLaws Φ) (hu : Φ.u ≤ 1 / 32) (k : Kern F) (w : ℝ)
    (hw : k.flatWeight Φ = some w) (nt : ℕ) (ty : IdxTy) (level : ErrorLevel)
    (hl : level = .ignore ∨ level = .warn ∨ level = .none) (p : Par F) (xo yo zo : F) (fuel base : ℕ)
    (m : Buf F) (hb : base + nt ≤ m.size) (src : List (F × F))
    (hsrc : k.cells p xo yo zo fuel = some src)
    (hcast : ∀ ps, k.points p xo yo zo fuel = some ps → ∀ q ∈ ps, q.castOk ty)
    (hn : ∀ s ∈ src, Φ.Normal w p (Φ.val xo - Φ.val s.1) (Φ.val yo - Φ.val s.2) (Φ.val zo)
      (Φ.dist xo yo zo s.1 s.2)) :
    ∃ (m' : Buf F) (e : SIRError) (idx : F × F → ℤ),
      k.serial nt ty level none p xo yo zo fuel base m = .ok (m', e) ∧
      (∀ s ∈ src, |(idx s : ℝ) - Φ.arrives p (Φ.dist xo yo zo s.1 s.2)| ≤
        1 / 2 + (relErr Φ.u 8 * Φ.spread p (Φ.dist xo yo zo s.1 s.2) + Φ.eta)) ∧
      (∀ s ∈ src, ∀ n : ℤ, |Φ.arrives p (Φ.dist xo yo zo s.1 s.2) - n| <
        1 / 2 - (relErr Φ.u 8 * Φ.spread p (Φ.dist xo yo zo s.1 s.2) + Φ.eta) → idx s = n) ∧
      ∀ i, i < nt → Φ.fin (m'.data (base + i)) → ∀ hit, hit = src.filter (fun s => idx s = (i : ℤ)) →
        |Φ.val (m'.data (base + i)) - (Φ.val (k.initial base m i) +
          (hit.map fun s => Φ.rayleigh w p (Φ.dist xo yo zo s.1 s.2)).sum)| ≤
        ((1 + relErr Φ.u 13) * (1 + Φ.u) ^ hit.length - 1) * (|Φ.val (k.initial base m i)| +
          (hit.map fun s => |Φ.rayleigh w p (Φ.dist xo yo zo s.1 s.2)|).sum) := by
  have hps : k.points p xo yo zo fuel = some (src.map (k.ptAt p xo yo zo)) := by
    rw [points_cells, hsrc]; rfl
  have hcast' := hcast _ hps
  have hline : ∀ s ∈ src, (∃ a, k = .line a) → s.2 = lit 0 := by
    rintro s hs ⟨a, rfl⟩
    simp only [Kern.cells, Option.map_eq_some_iff] at hsrc
    obtain ⟨l, _, rfl⟩ := hsrc
    simp only [List.mem_map] at hs
    obtain ⟨x, _, rfl⟩ := hs
    rfl
  have facts := fun s (hs : s ∈ src) => cell_facts L hu k w hw p xo yo zo s (hline s hs)
    (let ⟨i, hi, _⟩ := hcast' _ (List.mem_map_of_mem hs); ⟨i, hi⟩) (hn s hs)
  obtain ⟨m', g1, g2⟩ := C10_ignore_warn k nt ty level none p xo yo zo fuel base m hb _ hps hcast' hl
  refine ⟨m', _, fun s => (k.ptAt p xo yo zo s).idx, g1, fun s hs => (facts s hs).1, ?_, ?_⟩
  · intro s hs n hsn
    have h1 := (facts s hs).1
    have h2 := abs_add_le (((k.ptAt p xo yo zo s).idx : ℝ) - Φ.arrives p (Φ.dist xo yo zo s.1 s.2))
      (Φ.arrives p (Φ.dist xo yo zo s.1 s.2) - n)
    rw [sub_add_sub_cancel] at h2
    have h3 : |((k.ptAt p xo yo zo s).idx : ℝ) - n| < 1 := by linarith
    have h4 : |(k.ptAt p xo yo zo s).idx - n| < 1 := by exact_mod_cast h3
    have := Int.abs_lt_one_iff.1 h4
    show (k.ptAt p xo yo zo s).idx = n
    omega
  rintro i hi hf hit rfl
  have hfold := (g2 i hi).trans (fold_hits (k.ptAt p xo yo zo) nt i hi src (k.initial base m i))
  rw [hfold] at hf ⊢
  have h13 := relErr_nonneg L hu 13
  have hk : (1 : ℝ) ≤ 1 + relErr Φ.u 13 := by linarith
  refine (foldl_err L (fun a => (k.ptAt p xo yo zo a).ai)
    (fun s => Φ.rayleigh w p (Φ.dist xo yo zo s.1 s.2)) hk _ ?_ _ hf).2
  intro a ha hfa
  have := ((facts a (List.mem_of_mem_filter ha)).2 hfa).abs_sub L.u_nonneg (u_lt L hu)
  rw [add_sub_cancel_left]
  exact this

/-- C74: the same for the matrix that a complete run of the function returns, for every number of
workers and every schedule (observation point `n` at `(xo, yo, zo)` with delay `d`). -/
theorem C74_run (L : FloatLaws Φ) (hu : Φ.u ≤ 1 / 32) (D : SirCall F) (m : Buf F) (hs : D.Sized m)
    (hd : D.Defined m) (hatt : D.att = none) (hl : D.level = .ignore ∨ D.level = .warn ∨ D.level = .none)
    (w : ℝ) (hw : D.k.flatWeight Φ = some w) (nth : ℕ) (h1 : 1 ≤ nth) (as : List Act)
    (hab : Act.abort ∉ as) (s' : Sys F (KLoc F)) (hr : D.Run nth m as s') (n : ℕ) (hn : n < D.No)
    (xo yo zo d : F) (hin : D.inputs n = .ok (xo, yo, zo, d)) (p : Par F)
    (hp : p = { D.p with delay := d }) (fuel : ℕ) (src : List (F × F))
    (hsrc : D.k.cells p xo yo zo fuel = some src)
    (hcast : ∀ ps, D.k.points p xo yo zo fuel = some ps → ∀ q ∈ ps, q.castOk D.ty)
    (hn' : ∀ s ∈ src, Φ.Normal w p (Φ.val xo - Φ.val s.1) (Φ.val yo - Φ.val s.2) (Φ.val zo)
      (Φ.dist xo yo zo s.1 s.2)) :
    ∃ idx : F × F → ℤ,
      (∀ s ∈ src, |(idx s : ℝ) - Φ.arrives p (Φ.dist xo yo zo s.1 s.2)| ≤
        1 / 2 + (relErr Φ.u 8 * Φ.spread p (Φ.dist xo yo zo s.1 s.2) + Φ.eta)) ∧
      ∀ i, i < D.nt → Φ.fin (s'.mem.data (n * D.nt + i)) →
        ∀ hit, hit = src.filter (fun s => idx s = (i : ℤ)) →
        |Φ.val (s'.mem.data (n * D.nt + i)) - (Φ.val (D.k.initial (n * D.nt) m i) +
          (hit.map fun s => Φ.rayleigh w p (Φ.dist xo yo zo s.1 s.2)).sum)| ≤
        ((1 + relErr Φ.u 13) * (1 + Φ.u) ^ hit.length - 1) * (|Φ.val (D.k.initial (n * D.nt) m i)| +
          (hit.map fun s => |Φ.rayleigh w p (Φ.dist xo yo zo s.1 s.2)|).sum) := by
  have hcol : n * D.nt + D.nt ≤ m.size := by
    rw [hs.out]
    calc n * D.nt + D.nt = (n + 1) * D.nt := by ring
      _ ≤ D.No * D.nt := Nat.mul_le_mul_right _ hn
  obtain ⟨m', e, idx, g1, g2, _, g4⟩ := C74_response L hu D.k w hw D.nt D.ty D.level hl p xo yo zo fuel
    (n * D.nt) m hcol src hsrc hcast hn'
  have hser : D.serialAt n fuel m = .ok (m', e) := by
    unfold SirCall.serialAt
    rw [hin, hatt]
    simp only [Outcome.bind, bind]
    rw [← hp]
    exact g1
  refine ⟨idx, g2, ?_⟩
  intro i hi
  rw [C03_columns hs hd nth h1 as hab (fun n hn => C03_nonstop_levels hs hd hl n hn) s' hr n hn fuel m' e
    hser i hi]
  exact g4 i hi

/-! ### The positions of the cells -/

/-- The values of the loop variable. -/
def loopVar (dx x0 : F) : ℕ → F
  | 0 => x0
  | n + 1 => loopVar dx x0 n +. dx

theorem loopVar_succ' (dx x0 : F) (n : ℕ) : loopVar dx (x0 +. dx) n = loopVar dx x0 (n + 1) := by
  induction n with
  | zero => rfl
  | succ n ih => simp only [loopVar] at ih ⊢; rw [ih]

/-- The loop ends at the first value that fails the test. -/
theorem visits_of_tests (dx xmax : F) (N : ℕ) : ∀ (x0 : F), (∀ j, j < N → Arith.le (loopVar dx x0 j) xmax = true) →
    Arith.le (loopVar dx x0 N) xmax = false → ∀ fuel, N < fuel →
    visits dx xmax fuel x0 = some ((List.range N).map (loopVar dx x0)) := by
  induction N with
  | zero =>
    intro x0 _ h2 fuel hf
    obtain ⟨f, rfl⟩ := Nat.exists_eq_succ_of_ne_zero (by omega : fuel ≠ 0)
    simp only [visits]
    simp only [loopVar] at h2
    simp [h2]
  | succ N ih =>
    intro x0 h1 h2 fuel hf
    obtain ⟨f, rfl⟩ := Nat.exists_eq_succ_of_ne_zero (by omega : fuel ≠ 0)
    have h0 := h1 0 (by omega)
    simp only [loopVar] at h0
    simp only [visits]
    rw [if_pos h0, ih (x0 +. dx) (fun j hj => by rw [loopVar_succ']; exact h1 _ (by omega))
      (by rw [loopVar_succ']; exact h2) f (by omega)]
    rw [List.range_succ_eq_map]
    simp only [Option.map_some, List.map_cons, List.map_map, Function.comp_def, Option.some.injEq,
      List.cons.injEq]
    exact ⟨rfl, List.map_congr_left fun n _ => loopVar_succ' dx x0 n⟩

theorem rowCells_rect (row : F → Row F) (dx : F) (fuel : ℕ) (xs : List F)
    (h : ∀ y, visits dx (row y).xmax fuel (row y).x0 = some xs) (ys : List F) :
    rowCells row dx fuel ys = some (ys.flatMap fun y => xs.map fun x => (x, y)) := by
  induction ys with
  | nil => rfl
  | cons y ys ih => simp only [rowCells, h, ih, List.flatMap_cons]

section Grid
variable (L : FloatLaws Φ) (hu : Φ.u ≤ 1 / 32)
include L hu

theorem half_err {a : F} (fa : Φ.fin a) (ha : |Φ.val a| ≤ Φ.huge) (ca : Φ.Clear (Φ.val a / 2)) :
    Φ.fin (a /. lit 2) ∧ |Φ.val (a /. lit 2) - Φ.val a / 2| ≤ Φ.u * |Φ.val a / 2| := by
  have h2 : Φ.fin (lit 2) ∧ Φ.val (lit 2) = 2 := by
    have := L.small 2 (by norm_num)
    push_cast at this
    exact this
  have hf : Φ.fin (a /. lit 2) := by
    refine L.div_fin _ _ fa h2.1 (by rw [h2.2]; norm_num) ?_
    rw [h2.2, abs_div, abs_of_pos (by norm_num : (0 : ℝ) < 2)]
    have := abs_nonneg (Φ.val a)
    linarith
  refine ⟨hf, ?_⟩
  have := ((L.div _ _ hf).2 h2.1 (by rw [h2.2]; norm_num)).2
  rw [h2.2] at this
  refine this ?_
  rcases ca with h | h
  · exact .inl h
  · right
    have := abs_nonneg (Φ.val a / 2)
    by_cases ht : 0 ≤ Φ.tiny
    · linarith
    · linarith

/-- Error of the positions of the cells along one side of length `a`. -/
theorem loopVar_err {a dx : F} (fa : Φ.fin a) (fd : Φ.fin dx) (ha : 0 ≤ Φ.val a) (hd : 0 < Φ.val dx)
    (ca : Φ.Clear (Φ.val a / 2)) (cd : Φ.Clear (Φ.val dx / 2)) (N : ℕ)
    (hb : (1 + Φ.u) ^ (N + 2) * (Φ.val a / 2 + Φ.val dx / 2 + N * Φ.val dx) ≤ Φ.huge / 2) (j : ℕ) (hj : j ≤ N) :
    Φ.fin (loopVar dx (Arith.neg a /. lit 2 +. dx /. lit 2) j) ∧
    |Φ.val (loopVar dx (Arith.neg a /. lit 2 +. dx /. lit 2) j) - cell (Φ.val a) (Φ.val dx) j| ≤
      ((1 + Φ.u) ^ (j + 2) - 1) * (Φ.val a / 2 + Φ.val dx / 2 + j * Φ.val dx) := by
  have h0 := L.u_nonneg
  have hN : (0 : ℝ) ≤ N * Φ.val dx := by positivity
  have hG : (1 : ℝ) ≤ (1 + Φ.u) ^ (N + 2) := geom_ge_one h0 _
  have hA0 : 0 ≤ Φ.val a / 2 + Φ.val dx / 2 + N * Φ.val dx := by positivity
  have hbA : Φ.val a / 2 + Φ.val dx / 2 + N * Φ.val dx ≤ Φ.huge / 2 :=
    (le_mul_of_one_le_left hA0 hG).trans hb
  have fna : Φ.fin (Arith.neg a) := (L.neg a).1.2 fa
  have vna : Φ.val (Arith.neg a) = -Φ.val a := (L.neg a).2 fa
  obtain ⟨f1, e1⟩ := half_err L hu fna (by rw [vna, abs_neg, abs_of_nonneg ha]; linarith) (by
    rw [vna, neg_div]
    rcases ca with h | h
    · exact .inl (by rw [h, neg_zero])
    · exact .inr (by rw [abs_neg]; exact h))
  obtain ⟨f2, e2⟩ := half_err L hu fd (by rw [abs_of_pos hd]; linarith) cd
  rw [vna, neg_div, abs_neg, abs_of_nonneg (by positivity : 0 ≤ Φ.val a / 2)] at e1
  have e2' : |Φ.val (dx /. lit 2) - Φ.val dx / 2| ≤ (1 + Φ.u - 1) * |Φ.val dx / 2| + 0 := by
    rw [add_zero, add_sub_cancel_left]; exact e2
  induction j with
  | zero =>
    have fs : Φ.fin (Arith.neg a /. lit 2 +. dx /. lit 2) := by
      refine L.add_fin _ _ f1 f2 ?_
      rw [abs_of_pos (by positivity : 0 < Φ.val dx / 2)] at e2
      have g1 : |Φ.val (Arith.neg a /. lit 2)| ≤ (1 + Φ.u) * (Φ.val a / 2) := by
        rw [abs_le] at e1 ⊢
        have := mul_nonneg h0 (by positivity : 0 ≤ Φ.val a / 2)
        constructor <;> linarith
      have g2 : |Φ.val (dx /. lit 2)| ≤ (1 + Φ.u) * (Φ.val dx / 2) := by
        rw [abs_le] at e2 ⊢
        have := mul_nonneg h0 (by positivity : 0 ≤ Φ.val dx / 2)
        constructor <;> linarith
      have g3 := abs_add_le (Φ.val (Arith.neg a /. lit 2)) (Φ.val (dx /. lit 2))
      have g4 : Φ.u * (Φ.val a / 2 + Φ.val dx / 2) ≤ 1 * (Φ.val a / 2 + Φ.val dx / 2) :=
        mul_le_mul_of_nonneg_right (by linarith) (by positivity)
      linarith
    refine ⟨fs, ?_⟩
    have := acc_step (η := 0) (c := 0) (κ := 1 + Φ.u) (H := 1) (S := -(Φ.val a / 2)) (A := Φ.val a / 2)
      (E := Φ.u * (Φ.val a / 2)) h0 le_rfl (by linarith) le_rfl (L.add _ _ fs).2.2 e2' e1
      (by rw [abs_neg, abs_of_nonneg (by positivity)]) le_rfl (by linarith)
    rw [mul_zero, add_zero, abs_of_pos (by positivity : 0 < Φ.val dx / 2), one_mul] at this
    simp only [loopVar, cell]
    push_cast
    rw [zero_mul, add_zero, add_zero, neg_div, sq]
    exact this
  | succ j ih =>
    obtain ⟨i1, i2⟩ := ih (by omega)
    have hjN : ((j : ℝ) + 1) * Φ.val dx ≤ N * Φ.val dx := by
      refine mul_le_mul_of_nonneg_right ?_ hd.le
      exact_mod_cast hj
    have hj0 : 0 ≤ (j : ℝ) * Φ.val dx := by positivity
    have hcell : |cell (Φ.val a) (Φ.val dx) j| ≤ Φ.val a / 2 + Φ.val dx / 2 + j * Φ.val dx := by
      unfold cell
      rw [abs_le]
      constructor <;> linarith
    have hGj : (1 + Φ.u) ^ (j + 2) ≤ (1 + Φ.u) ^ (N + 2) := pow_le_pow_right₀ (by linarith) (by omega)
    have hGj1 : (1 : ℝ) ≤ (1 + Φ.u) ^ (j + 2) := geom_ge_one h0 _
    generalize Φ.val a / 2 + Φ.val dx / 2 = B at *
    have hB : 0 ≤ B + j * Φ.val dx := (abs_nonneg _).trans hcell
    have fs : Φ.fin (loopVar dx (Arith.neg a /. lit 2 +. dx /. lit 2) j +. dx) := by
      refine L.add_fin _ _ i1 fd ?_
      generalize Φ.val (loopVar dx (Arith.neg a /. lit 2 +. dx /. lit 2) j) = s at *
      have g1 : |s| ≤ (1 + Φ.u) ^ (j + 2) * (B + j * Φ.val dx) := by
        have := abs_add_le (cell (Φ.val a) (Φ.val dx) j) (s - cell (Φ.val a) (Φ.val dx) j)
        rw [add_sub_cancel] at this
        linarith
      have g2 := abs_add_le s (Φ.val dx)
      rw [abs_of_pos hd] at g2
      have g3 : (1 + Φ.u) ^ (j + 2) * (B + j * Φ.val dx) ≤ (1 + Φ.u) ^ (N + 2) * (B + N * Φ.val dx) :=
        mul_le_mul hGj (by linarith) hB (by linarith)
      have g4 : Φ.val dx ≤ Φ.huge / 2 := by
        have : B + j * Φ.val dx + Φ.val dx ≤ B + N * Φ.val dx := by linarith
        linarith
      linarith
    refine ⟨fs, ?_⟩
    have ht : |Φ.val dx - Φ.val dx| ≤ (1 + Φ.u - 1) * |Φ.val dx| + 0 := by
      rw [sub_self, abs_zero, add_sub_cancel_left, add_zero]
      exact mul_nonneg h0 (abs_nonneg _)
    have := acc_step (η := 0) (c := 0) (κ := 1 + Φ.u) (H := (1 + Φ.u) ^ (j + 1))
      h0 le_rfl (by linarith) le_rfl (L.add _ _ fs).2.2 ht i2 hcell (geom_ge_one h0 _)
      (by rw [mul_zero, add_zero, ← pow_succ'])
    rw [mul_zero, add_zero, abs_of_pos hd, ← pow_succ, ← pow_succ'] at this
    simp only [loopVar]
    have ec : cell (Φ.val a) (Φ.val dx) (j + 1) = cell (Φ.val a) (Φ.val dx) j + Φ.val dx := by
      unfold cell; push_cast; ring
    rw [ec]
    refine this.trans (le_of_eq ?_)
    push_cast
    ring

/-- How far off the positions of up to `N + 1` cells along a side of length `a`, and the end of the
side, can be. -/
noncomputable def FloatView.gridErr (Φ : FloatView F) (a dx : ℝ) (N : ℕ) : ℝ :=
  ((1 + Φ.u) ^ (N + 2) - 1) * (a / 2 + dx / 2 + N * dx)

theorem side_visits {a dx : F} (fa : Φ.fin a) (fd : Φ.fin dx) (ha : 0 ≤ Φ.val a) (hd : 0 < Φ.val dx)
    (ca : Φ.Clear (Φ.val a / 2)) (cd : Φ.Clear (Φ.val dx / 2)) (N : ℕ)
    (hb : (1 + Φ.u) ^ (N + 2) * (Φ.val a / 2 + Φ.val dx / 2 + N * Φ.val dx) ≤ Φ.huge / 2)
    (hin : 1 ≤ N → cell (Φ.val a) (Φ.val dx) (N - 1) + Φ.gridErr (Φ.val a) (Φ.val dx) N + Φ.u * (Φ.val a / 2) ≤
      Φ.val a / 2)
    (hout : Φ.val a / 2 + Φ.u * (Φ.val a / 2) + Φ.gridErr (Φ.val a) (Φ.val dx) N <
      cell (Φ.val a) (Φ.val dx) N) (fuel : ℕ) (hfu : N < fuel) :
    ∃ xs, visits dx (a /. lit 2) fuel (Arith.neg a /. lit 2 +. dx /. lit 2) = some xs ∧ xs.length = N ∧
      ∀ j (hj : j < xs.length), |Φ.val xs[j] - cell (Φ.val a) (Φ.val dx) j| ≤
        Φ.gridErr (Φ.val a) (Φ.val dx) N := by
  have h0 := L.u_nonneg
  have hG : (1 : ℝ) ≤ (1 + Φ.u) ^ (N + 2) := geom_ge_one h0 _
  have hA0 : 0 ≤ Φ.val a / 2 + Φ.val dx / 2 + N * Φ.val dx := by positivity
  have hbA : Φ.val a / 2 + Φ.val dx / 2 + N * Φ.val dx ≤ Φ.huge / 2 :=
    (le_mul_of_one_le_left hA0 hG).trans hb
  have hN : (0 : ℝ) ≤ N * Φ.val dx := by positivity
  obtain ⟨fm, em⟩ := half_err L hu fa (by rw [abs_of_nonneg ha]; linarith) ca
  rw [abs_of_nonneg (by positivity : 0 ≤ Φ.val a / 2)] at em
  have key : ∀ j, j ≤ N → Φ.fin (loopVar dx (Arith.neg a /. lit 2 +. dx /. lit 2) j) ∧
      |Φ.val (loopVar dx (Arith.neg a /. lit 2 +. dx /. lit 2) j) - cell (Φ.val a) (Φ.val dx) j| ≤
        Φ.gridErr (Φ.val a) (Φ.val dx) N := by
    intro j hj
    obtain ⟨g1, g2⟩ := loopVar_err L hu fa fd ha hd ca cd N hb j hj
    refine ⟨g1, g2.trans ?_⟩
    unfold FloatView.gridErr
    have hjN : (j : ℝ) * Φ.val dx ≤ N * Φ.val dx := by
      refine mul_le_mul_of_nonneg_right ?_ hd.le
      exact_mod_cast hj
    have hGj : (1 + Φ.u) ^ (j + 2) ≤ (1 + Φ.u) ^ (N + 2) := pow_le_pow_right₀ (by linarith) (by omega)
    exact mul_le_mul (by linarith) (by linarith) (by positivity) (by linarith)
  refine ⟨_, visits_of_tests dx (a /. lit 2) N _ ?_ ?_ fuel hfu, by simp, ?_⟩
  · intro j hj
    obtain ⟨g1, g2⟩ := key j hj.le
    rw [L.le _ _ g1 fm]
    have hc : cell (Φ.val a) (Φ.val dx) j ≤ cell (Φ.val a) (Φ.val dx) (N - 1) := by
      unfold cell
      have : (j : ℝ) * Φ.val dx ≤ (N - 1 : ℕ) * Φ.val dx := by
        refine mul_le_mul_of_nonneg_right ?_ hd.le
        exact_mod_cast (by omega : j ≤ N - 1)
      linarith
    have := hin (by omega)
    rw [abs_le] at g2 em
    linarith [g2.2, em.1]
  · obtain ⟨g1, g2⟩ := key N le_rfl
    rw [← Bool.not_eq_true, L.le _ _ g1 fm, not_le]
    rw [abs_le] at g2 em
    linarith [g2.1, em.2]
  · intro j hj
    have hj' : j < N := by simpa using hj
    rw [List.getElem_map, List.getElem_range]
    exact (key j hj'.le).2

/-- The side of a rectangle that is `N` cells long. -/
theorem side_exact {a dx : F} (fa : Φ.fin a) (fd : Φ.fin dx) (hd : 0 < Φ.val dx) (N : ℕ)
    (ha : Φ.val a = N * Φ.val dx) (ca : Φ.Clear (Φ.val a / 2)) (cd : Φ.Clear (Φ.val dx / 2))
    (hs : ((1 + Φ.u) ^ (N + 2) - 1) * (3 * N + 1) + Φ.u * N < 1)
    (hb : (2 * N + 1) * Φ.val dx ≤ Φ.huge / 2) (fuel : ℕ) (hfu : N < fuel) :
    ∃ xs, visits dx (a /. lit 2) fuel (Arith.neg a /. lit 2 +. dx /. lit 2) = some xs ∧ xs.length = N ∧
      ∀ j (hj : j < xs.length), |Φ.val xs[j] - cell (Φ.val a) (Φ.val dx) j| ≤
        ((1 + Φ.u) ^ (N + 2) - 1) * (3 * N + 1) / 2 * Φ.val dx := by
  have h0 := L.u_nonneg
  have hN : (0 : ℝ) ≤ N * Φ.val dx := by positivity
  have eg : Φ.gridErr (Φ.val a) (Φ.val dx) N = ((1 + Φ.u) ^ (N + 2) - 1) * (3 * N + 1) / 2 * Φ.val dx := by
    unfold FloatView.gridErr; rw [ha]; ring
  have hsd : ((1 + Φ.u) ^ (N + 2) - 1) * (3 * N + 1) / 2 * Φ.val dx + Φ.u * (N * Φ.val dx / 2) <
      Φ.val dx / 2 := by
    have := mul_lt_mul_of_pos_right hs (half_pos hd)
    linarith
  have hG : (1 : ℝ) ≤ (1 + Φ.u) ^ (N + 2) := geom_ge_one h0 _
  have := side_visits L hu fa fd (by rw [ha]; positivity) hd ca cd N ?_ ?_ ?_ fuel hfu
  · rw [eg] at this
    exact this
  · have e : (1 + Φ.u) ^ (N + 2) * (Φ.val a / 2 + Φ.val dx / 2 + N * Φ.val dx) =
        (3 * N + 1) / 2 * Φ.val dx + ((1 + Φ.u) ^ (N + 2) - 1) * (3 * N + 1) / 2 * Φ.val dx := by
      rw [ha]; ring
    have h1 : 0 ≤ Φ.u * (N * Φ.val dx / 2) := by positivity
    rw [e]
    linarith
  · intro h1
    rw [eg]
    have e : cell (Φ.val a) (Φ.val dx) (N - 1) = Φ.val a / 2 - Φ.val dx / 2 := by
      unfold cell; rw [ha, Nat.cast_sub h1]; push_cast; ring
    rw [e, ha]
    linarith
  · rw [eg]
    have e : cell (Φ.val a) (Φ.val dx) N = Φ.val a / 2 + Φ.val dx / 2 := by
      unfold cell; rw [ha]; ring
    rw [e, ha]
    linarith

/-- C74: the cells of a rectangle that is `Nx` by `Ny` cells large.  The loops visit exactly `Nx`
columns and `Ny` rows, each at its exact position up to about `3 N^2 / 2` unit roundoffs of a cell. -/
theorem C74_rect_cells (w : F) {a b : F} (p : Par F) (xo yo zo : F) (Nx Ny : ℕ)
    (fin : Φ.fin a ∧ Φ.fin b ∧ Φ.fin p.dx ∧ Φ.fin p.dy) (hd : 0 < Φ.val p.dx ∧ 0 < Φ.val p.dy)
    (ha : Φ.val a = Nx * Φ.val p.dx) (hb : Φ.val b = Ny * Φ.val p.dy)
    (hc : Φ.Clear (Φ.val a / 2) ∧ Φ.Clear (Φ.val b / 2) ∧ Φ.Clear (Φ.val p.dx / 2) ∧
      Φ.Clear (Φ.val p.dy / 2))
    (hsx : ((1 + Φ.u) ^ (Nx + 2) - 1) * (3 * Nx + 1) + Φ.u * Nx < 1)
    (hsy : ((1 + Φ.u) ^ (Ny + 2) - 1) * (3 * Ny + 1) + Φ.u * Ny < 1)
    (hbig : (2 * Nx + 1) * Φ.val p.dx ≤ Φ.huge / 2 ∧ (2 * Ny + 1) * Φ.val p.dy ≤ Φ.huge / 2)
    (fuel : ℕ) (hfu : Nx < fuel ∧ Ny < fuel) :
    ∃ xs ys : List F, (Kern.rect w a b).cells p xo yo zo fuel =
        some (ys.flatMap fun y => xs.map fun x => (x, y)) ∧ xs.length = Nx ∧ ys.length = Ny ∧
      (∀ j (hj : j < xs.length), |Φ.val xs[j] - cell (Φ.val a) (Φ.val p.dx) j| ≤
        ((1 + Φ.u) ^ (Nx + 2) - 1) * (3 * Nx + 1) / 2 * Φ.val p.dx) ∧
      ∀ q (hq : q < ys.length), |Φ.val ys[q] - cell (Φ.val b) (Φ.val p.dy) q| ≤
        ((1 + Φ.u) ^ (Ny + 2) - 1) * (3 * Ny + 1) / 2 * Φ.val p.dy := by
  obtain ⟨xs, x1, x2, x3⟩ := side_exact L hu fin.1 fin.2.2.1 hd.1 Nx ha hc.1 hc.2.2.1 hsx hbig.1 fuel hfu.1
  obtain ⟨ys, y1, y2, y3⟩ := side_exact L hu fin.2.1 fin.2.2.2 hd.2 Ny hb hc.2.1 hc.2.2.2 hsy hbig.2 fuel
    hfu.2
  refine ⟨xs, ys, ?_, x2, y2, x3, y3⟩
  have hys : visits ((Kern.rect w a b).geo p xo yo zo).dy ((Kern.rect w a b).geo p xo yo zo).ymax fuel
      ((Kern.rect w a b).geo p xo yo zo).y0 = some ys := y1
  simp only [Kern.cells, hys, Option.bind_some]
  exact rowCells_rect _ _ _ xs (fun y => x1) ys

end Grid

/-! ### Non-vacuity -/

/-- Parameters of a 2 by 2 cells rectangle in arithmetic with 53 digits. -/
noncomputable def exRndPar : Par (Rnd 53) where
  dx := ⟨1⟩
  dy := ⟨1⟩
  dt := ⟨1⟩
  delay := ⟨0⟩
  v := ⟨1⟩
  cp := ⟨1000⟩

theorem rnd_clear (x : ℝ) : (rndView 53).Clear x := by
  right
  show 2 * (0 : ℝ) ≤ |x|
  rw [mul_zero]
  exact abs_nonneg x

theorem rnd_u : (rndView 53).u ≤ 1 / 32 := by
  show (1 / 2 : ℝ) ^ 53 ≤ 1 / 32
  norm_num

theorem exRnd_relErr : relErr (rndView 53).u 8 ≤ 1 := by
  show ((1 - (1 / 2 : ℝ) ^ 53) ^ 8)⁻¹ - 1 ≤ 1
  norm_num

theorem rnd_huge : (1024 : ℝ) ≤ 2 ^ 1023 := by
  have e : (2 : ℝ) ^ 1023 = 2 ^ 10 * 2 ^ 1013 := by rw [← pow_add]
  have h1 : (1 : ℝ) ≤ 2 ^ 1013 := one_le_pow₀ (by norm_num)
  have h2 : (2 : ℝ) ^ 10 = 1024 := by norm_num
  rw [e, h2]
  generalize (2 : ℝ) ^ 1013 = t at h1 ⊢
  linarith

theorem exRnd_normal (X Y R : ℝ) (h1 : 0 < R) (h2 : R ≤ 20) :
    (rndView 53).Normal 1 exRndPar X Y 10 R := by
  have hpi := Real.pi_le_four
  have hpos := Real.pi_pos
  refine ⟨trivial, ?_, trivial, ?_, h1, rnd_clear _, rnd_clear _, rnd_clear _, rnd_clear _, rnd_clear _,
    rnd_clear _, rnd_clear _, ?_, rnd_clear _, rnd_clear _, rnd_clear _, rnd_clear _, rnd_clear _⟩
  · show (0 : ℝ) < 1000; norm_num
  · show (0 : ℝ) < 1; norm_num
  · show 2 * (2 * Real.pi * R) ≤ 2 ^ 1023
    have h3 : Real.pi * R ≤ 4 * 20 := mul_le_mul hpi h2 h1.le (by norm_num)
    have h4 : 2 * (2 * Real.pi * R) = 4 * (Real.pi * R) := by ring
    refine le_trans ?_ rnd_huge
    rw [h4]
    linarith

-- the hypotheses of C74_rect_cells and C74_response hold for a 2 by 2 rectangle seen from (0, 0, 10)
example : ∃ xs ys : List (Rnd 53), (Kern.rect ⟨1⟩ ⟨2⟩ ⟨2⟩).cells exRndPar ⟨0⟩ ⟨0⟩ ⟨10⟩ 5 =
      some (ys.flatMap fun y => xs.map fun x => (x, y)) ∧ xs.length = 2 ∧ ys.length = 2 ∧
    (∀ ps, (Kern.rect ⟨1⟩ ⟨2⟩ ⟨2⟩).points exRndPar ⟨0⟩ ⟨0⟩ ⟨10⟩ 5 = some ps → ∀ q ∈ ps, q.castOk .signed) ∧
    ∀ s ∈ (ys.flatMap fun y => xs.map fun x => (x, y)),
      (rndView 53).Normal 1 exRndPar ((0 : ℝ) - s.1.v) ((0 : ℝ) - s.2.v) 10
        ((rndView 53).dist ⟨0⟩ ⟨0⟩ ⟨10⟩ s.1 s.2) := by
  have small : (((1 : ℝ) + (rndView 53).u) ^ (2 + 2) - 1) * (3 * (2 : ℕ) + 1) + (rndView 53).u * (2 : ℕ) <
      1 / 100 := by
    show ((1 + (1 / 2 : ℝ) ^ 53) ^ (2 + 2) - 1) * (3 * (2 : ℕ) + 1) + (1 / 2) ^ 53 * (2 : ℕ) < 1 / 100
    norm_num
  have hbig : (2 * ((2 : ℕ) : ℝ) + 1) * 1 ≤ (2 : ℝ) ^ 1023 / 2 := by
    have h1 := rnd_huge
    generalize (2 : ℝ) ^ 1023 = t at h1 ⊢
    push_cast
    linarith
  obtain ⟨xs, ys, g1, g2, g3, g4, g5⟩ := C74_rect_cells (rndLaws 53) rnd_u ⟨1⟩ (a := ⟨2⟩) (b := ⟨2⟩)
    exRndPar ⟨0⟩ ⟨0⟩ ⟨10⟩ 2 2 ⟨trivial, trivial, trivial, trivial⟩
    ⟨by show (0 : ℝ) < 1; norm_num, by show (0 : ℝ) < 1; norm_num⟩
    (by show (2 : ℝ) = (2 : ℕ) * 1; norm_num) (by show (2 : ℝ) = (2 : ℕ) * 1; norm_num)
    ⟨rnd_clear _, rnd_clear _, rnd_clear _, rnd_clear _⟩ (small.trans (by norm_num))
    (small.trans (by norm_num)) ⟨hbig, hbig⟩ 5 ⟨by norm_num, by norm_num⟩
  have near : ∀ (l : List (Rnd 53)) , l.length = 2 →
      (∀ j (hj : j < l.length), |(rndView 53).val l[j] - cell 2 1 j| ≤
        (((1 : ℝ) + (rndView 53).u) ^ (2 + 2) - 1) * (3 * (2 : ℕ) + 1) / 2 * 1) →
      ∀ x ∈ l, |x.v| ≤ 1 := by
    intro l hl h x hx
    obtain ⟨j, hj, rfl⟩ := List.getElem_of_mem hx
    have := h j hj
    have hj2 : j = 0 ∨ j = 1 := by omega
    have hb : |cell 2 1 j| ≤ 1 / 2 := by
      unfold cell
      rcases hj2 with rfl | rfl <;> norm_num
    have hu0 : (0 : ℝ) ≤ (rndView 53).u * (2 : ℕ) := by
      exact mul_nonneg (rndLaws 53).u_nonneg (Nat.cast_nonneg _)
    have h3 := abs_add_le (cell 2 1 j) (l[j].v - cell 2 1 j)
    rw [add_sub_cancel] at h3
    have h4 : |l[j].v - cell 2 1 j| ≤ 1 / 2 := le_trans this (by
      have sm := small
      generalize (((1 : ℝ) + (rndView 53).u) ^ (2 + 2) - 1) * (3 * (2 : ℕ) + 1) = E at sm ⊢
      generalize (rndView 53).u * (2 : ℕ) = G at sm hu0
      linarith)
    linarith
  have hx := near xs g2 g4
  have hy := near ys g3 g5
  have hcell : ∀ s ∈ (ys.flatMap fun y => xs.map fun x => (x, y)), |s.1.v| ≤ 1 ∧ |s.2.v| ≤ 1 := by
    intro s hs
    simp only [List.mem_flatMap, List.mem_map] at hs
    obtain ⟨y, h1, x, h2, rfl⟩ := hs
    exact ⟨hx x h2, hy y h1⟩
  have hdist : ∀ s ∈ (ys.flatMap fun y => xs.map fun x => (x, y)),
      0 < (rndView 53).dist ⟨0⟩ ⟨0⟩ ⟨10⟩ s.1 s.2 ∧ (rndView 53).dist ⟨0⟩ ⟨0⟩ ⟨10⟩ s.1 s.2 ≤ 20 := by
    intro s hs
    obtain ⟨a1, a2⟩ := hcell s hs
    show 0 < Real.sqrt (((0 : ℝ) - s.1.v) ^ 2 + ((0 : ℝ) - s.2.v) ^ 2 + (10 : ℝ) ^ 2) ∧
      Real.sqrt (((0 : ℝ) - s.1.v) ^ 2 + ((0 : ℝ) - s.2.v) ^ 2 + (10 : ℝ) ^ 2) ≤ 20
    rw [abs_le] at a1 a2
    constructor
    · apply Real.sqrt_pos.2; positivity
    · rw [Real.sqrt_le_left (by norm_num)]
      nlinarith
  have hnorm := fun s hs => exRnd_normal ((0 : ℝ) - s.1.v) ((0 : ℝ) - s.2.v) _ (hdist s hs).1 (hdist s hs).2
  refine ⟨xs, ys, g1, g2, g3, ?_, hnorm⟩
  intro ps hps q hq
  rw [points_cells, g1] at hps
  simp only [Option.map_some, Option.some.injEq] at hps
  subst hps
  obtain ⟨s, hs, rfl⟩ := List.mem_map.1 hq
  have hf := (cell_facts (rndLaws 53) rnd_u (Kern.rect ⟨1⟩ ⟨2⟩ ⟨2⟩) 1 rfl exRndPar ⟨0⟩ ⟨0⟩ ⟨10⟩ s
    (by rintro ⟨a, ha⟩; cases ha) ⟨_, rfl⟩ (hnorm s hs)).1
  refine ⟨_, rfl, ?_⟩
  have e : ∀ q : Pt (Rnd 53), q.idx = rintR q.arg.v := fun _ => rfl
  rw [e] at hf
  obtain ⟨d1, d2⟩ := hdist s hs
  generalize rintR _ = z at hf ⊢
  have ha : (rndView 53).arrives exRndPar ((rndView 53).dist ⟨0⟩ ⟨0⟩ ⟨10⟩ s.1 s.2) =
      (rndView 53).dist ⟨0⟩ ⟨0⟩ ⟨10⟩ s.1 s.2 := by
    show (_ * 1000 / 1000 - 0) / 1 = _
    ring
  have hb : (rndView 53).spread exRndPar ((rndView 53).dist ⟨0⟩ ⟨0⟩ ⟨10⟩ s.1 s.2) =
      (rndView 53).dist ⟨0⟩ ⟨0⟩ ⟨10⟩ s.1 s.2 := by
    show (_ * 1000 / 1000 + |(0 : ℝ)|) / 1 = _
    rw [abs_zero]
    ring
  rw [ha, hb, show (rndView 53).eta = 0 from rfl] at hf
  generalize (rndView 53).dist ⟨0⟩ ⟨0⟩ ⟨10⟩ s.1 s.2 = R at *
  have h5 : relErr (rndView 53).u 8 * R ≤ 1 * R := mul_le_mul_of_nonneg_right exRnd_relErr d1.le
  rw [abs_le] at hf
  have z1 : (-100 : ℝ) < z := by linarith [hf.1]
  have z2 : (z : ℝ) < 100 := by linarith [hf.2]
  have z1' : (-100 : ℤ) < z := by exact_mod_cast z1
  have z2' : z < (100 : ℤ) := by exact_mod_cast z2
  simp only [IdxTy.fits, decide_eq_true_eq]
  omega

end Dream
