import Verif.RoundErr
import Verif.ClaimsConv
import Verif.ClaimsDas

/-
C73: rounding errors of the time domain convolution and of the images.
-/

namespace Dream
open Arith

variable {F : Type} [Arith F] {Φ : FloatView F}

/-- Size of what is added up in a sample: the old contents (unless they are replaced) and the sum of
the absolute products. -/
noncomputable def magnitude (mode : ConvMode) (old S : ℝ) : ℝ :=
  match mode with
  | .equ => S
  | _ => |old| + S

theorem act_card (k nx ny : ℕ) :
    ((Finset.range nx).filter fun i => i ≤ k ∧ k - i < ny).card ≤ min nx ny := by
  refine le_min ((Finset.card_filter_le _ _).trans (by simp)) ?_
  calc ((Finset.range nx).filter fun i => i ≤ k ∧ k - i < ny).card
      ≤ ((Finset.range ny).image fun j => k - j).card := by
        refine Finset.card_le_card fun i hi => ?_
        simp only [Finset.mem_filter, Finset.mem_range, Finset.mem_image] at hi ⊢
        exact ⟨k - i, hi.2.2, by omega⟩
    _ ≤ ny := Finset.card_image_le.trans (by simp)

theorem linConv_eq (x y : ℕ → ℝ) (nx ny k : ℕ) : linConv x y nx ny k =
    ∑ i ∈ Finset.range nx, if i ≤ k ∧ k - i < ny then x i * y (k - i) else 0 := by
  unfold linConv
  exact Finset.sum_congr rfl fun i _ => inner_sum _ _ _ _ _

/-- The accumulation of one sample in an arithmetic that obeys the standard model; `sg` is the sign of
the terms. -/
theorem convAcc_err (L : FloatLaws Φ) (op : F → F → F) (sg : ℝ) (hsg : |sg| = 1)
    (hop : ∀ a b, Φ.fin (op a b) → Φ.fin a ∧ Φ.fin b ∧
      |Φ.val (op a b) - (Φ.val a + sg * Φ.val b)| ≤ Φ.u * |Φ.val a + sg * Φ.val b|)
    (x y : ℕ → F) (nx ny : ℕ) (z : F) (k : ℕ) (hf : Φ.fin (convAcc op x y nx ny z k)) :
    |Φ.val (convAcc op x y nx ny z k) - (Φ.val z +
      sg * linConv (fun i => Φ.val (x i)) (fun j => Φ.val (y j)) nx ny k)| ≤
    ((1 + Φ.u) ^ (min nx ny + 1) - 1) * (|Φ.val z| +
      linConv (fun i => |Φ.val (x i)|) (fun j => |Φ.val (y j)|) nx ny k) +
    min nx ny * (1 + Φ.u) ^ min nx ny * Φ.eta := by
  have hu := L.u_nonneg
  obtain ⟨_, h⟩ := fold_err (Φ := Φ) hu L.eta_nonneg (κ := 1 + Φ.u) (by linarith)
    (fun n => convAcc op x y n ny z k) (fun i => sg * (Φ.val (x i) * Φ.val (y (k - i))))
    (fun i => i ≤ k ∧ k - i < ny)
    (by
      intro n hn
      simp only [convAcc, List.range_succ, List.foldl_append, List.foldl_cons, List.foldl_nil, if_neg hn])
    (by
      intro n hn
      simp only [convAcc, List.range_succ, List.foldl_append, List.foldl_cons, List.foldl_nil, if_pos hn]
      intro hf
      obtain ⟨g1, g2, g3⟩ := hop _ _ hf
      refine ⟨g1, _, g3, ?_⟩
      obtain ⟨_, _, g4, _⟩ := L.mul _ _ g2
      rw [← mul_sub, abs_mul, abs_mul, hsg, one_mul, one_mul]
      rw [add_sub_cancel_left]
      exact g4) nx hf
  have e1 : (∑ n ∈ Finset.range nx,
      if n ≤ k ∧ k - n < ny then sg * (Φ.val (x n) * Φ.val (y (k - n))) else 0) =
      sg * linConv (fun i => Φ.val (x i)) (fun j => Φ.val (y j)) nx ny k := by
    rw [linConv_eq, Finset.mul_sum]
    refine Finset.sum_congr rfl fun i _ => ?_
    split <;> simp
  have e2 : (∑ n ∈ Finset.range nx,
      if n ≤ k ∧ k - n < ny then |sg * (Φ.val (x n) * Φ.val (y (k - n)))| else 0) =
      linConv (fun i => |Φ.val (x i)|) (fun j => |Φ.val (y j)|) nx ny k := by
    rw [linConv_eq]
    refine Finset.sum_congr rfl fun i _ => ?_
    rw [abs_mul, hsg, one_mul, abs_mul]
  simp only [e1, e2] at h
  have e0 : convAcc op x y 0 ny z k = z := rfl
  rw [e0] at h
  refine h.trans ?_
  have hc := act_card k nx ny
  generalize ((Finset.range nx).filter fun i => i ≤ k ∧ k - i < ny).card = c at hc ⊢
  have hpow : (1 + Φ.u) ^ c ≤ (1 + Φ.u) ^ min nx ny := pow_le_pow_right₀ (by linarith) hc
  have hA : 0 ≤ |Φ.val z| + linConv (fun i => |Φ.val (x i)|) (fun j => |Φ.val (y j)|) nx ny k := by
    rw [linConv_eq]
    refine add_nonneg (abs_nonneg _) (Finset.sum_nonneg fun i _ => ?_)
    split
    · positivity
    · exact le_rfl
  refine add_le_add (mul_le_mul_of_nonneg_right ?_ hA) (mul_le_mul_of_nonneg_right ?_ L.eta_nonneg)
  · have := mul_le_mul_of_nonneg_left hpow (show 0 ≤ 1 + Φ.u by linarith)
    rw [pow_succ]
    linarith
  · refine mul_le_mul ?_ hpow (by positivity) (by positivity)
    exact_mod_cast hc

theorem convCol_err (L : FloatLaws Φ) (mode : ConvMode) (x y : ℕ → F) (nx ny : ℕ) (c : ℕ → F) (k : ℕ)
    (hf : Φ.fin (convCol mode x y nx ny c k)) :
    |Φ.val (convCol mode x y nx ny c k) - stored mode (Φ.val (c k))
      (linConv (fun i => Φ.val (x i)) (fun j => Φ.val (y j)) nx ny k)| ≤
    ((1 + Φ.u) ^ (min nx ny + 1) - 1) * magnitude mode (Φ.val (c k))
      (linConv (fun i => |Φ.val (x i)|) (fun j => |Φ.val (y j)|) nx ny k) +
    min nx ny * (1 + Φ.u) ^ min nx ny * Φ.eta := by
  have hadd : ∀ a b, Φ.fin (a +. b) → Φ.fin a ∧ Φ.fin b ∧
      |Φ.val (a +. b) - (Φ.val a + 1 * Φ.val b)| ≤ Φ.u * |Φ.val a + 1 * Φ.val b| := by
    intro a b h
    rw [one_mul]
    exact L.add a b h
  have hsub : ∀ a b, Φ.fin (a -. b) → Φ.fin a ∧ Φ.fin b ∧
      |Φ.val (a -. b) - (Φ.val a + -1 * Φ.val b)| ≤ Φ.u * |Φ.val a + -1 * Φ.val b| := by
    intro a b h
    rw [neg_one_mul, ← sub_eq_add_neg]
    exact L.sub a b h
  cases mode with
  | equ =>
    have := convAcc_err L Arith.add 1 (by simp) hadd x y nx ny (lit 0) k hf
    rw [L.zero.2, zero_add, one_mul, abs_zero, zero_add] at this
    exact this
  | sum =>
    have := convAcc_err L Arith.add 1 (by simp) hadd x y nx ny (c k) k hf
    rw [one_mul] at this
    exact this
  | neg =>
    have := convAcc_err L Arith.sub (-1) (by simp) hsub x y nx ny (c k) k hf
    rw [neg_one_mul, ← sub_eq_add_neg] at this
    exact this

/-- C73: the time domain convolution in floating point.  Every complete run of conv_p, with any
number of workers and any schedule, leaves in each sample that is finite the exact result for the
stored (floating point) inputs up to `(1+u)^(n+1) - 1` times the sum of the absolute values of
everything that is added up, plus `n (1+u)^n` underflows, where `n` is the length of the shorter
operand. -/
theorem C73_conv_p (L : FloatLaws Φ) (C : ConvCall F) (Y : Buf F) (h : C.Sized Y)
    (ha : C.accepted = true) (hk : C.kind = .time) (nth : ℕ) (h1 : 1 ≤ nth)
    (as : List Act) (hab : Act.abort ∉ as) (s' : Sys F (Prog F SIRError))
    (hr : C.drv.Run nth Y as s') (n : ℕ) (hn : n < C.aN) (i : ℕ) (hi : i < C.len)
    (a b : ℕ → ℝ) (rows : ℕ) (hrows : rows = if C.bM = 1 ∨ C.bN = 1 then C.bM * C.bN else C.bM)
    (hA : ∀ i, a i = Φ.val (C.A.data (n * C.aM + i)))
    (hB : ∀ j, b j = Φ.val (C.B.data (if C.bM = 1 ∨ C.bN = 1 then j else n * C.bM + j)))
    (hf : Φ.fin (s'.mem.data (n * C.len + i))) :
    |Φ.val (s'.mem.data (n * C.len + i)) -
      stored C.mode (Φ.val (Y.data (n * C.len + i))) (linConv a b C.aM rows i)| ≤
    ((1 + Φ.u) ^ (min C.aM rows + 1) - 1) * magnitude C.mode (Φ.val (Y.data (n * C.len + i)))
      (linConv (fun i => |a i|) (fun j => |b j|) C.aM rows i) +
    min C.aM rows * (1 + Φ.u) ^ min C.aM rows * Φ.eta := by
  obtain ⟨z', e, hv⟩ := ConvCall.prog_run h ha hn (Y.getCol (n * C.len) C.len)
  obtain ⟨Y', f1, _, f3, _⟩ := Prog.runBuf_at (n * C.len) C.len Y (ConvCall.inside h n hn)
    (C.prog n) z' .none e
  rw [C29_columns h ha nth h1 as hab s' hr n hn Y' .none f1 i hi, f3 i hi, hv i hi] at hf ⊢
  have hy : Y.getCol (n * C.len) C.len i = Y.data (n * C.len + i) := by
    simp only [Buf.getCol]; rw [if_pos hi]
  have hA' : (fun i => Φ.val (C.colA n i)) = a := by
    funext i; rw [hA]; simp only [ConvCall.colA]; rw [Nat.add_comm]
  have hB' : (fun j => Φ.val (C.colB n j)) = b := by
    funext i; rw [hB]; simp only [ConvCall.colB]; rw [Nat.add_comm]
  unfold ConvCall.colVal at hf ⊢
  rw [hk] at hf ⊢
  simp only at hf ⊢
  have := convCol_err L _ _ _ _ _ _ _ hf
  rw [hA', hB', hy] at this
  subst hrows hA' hB'
  exact this

/-! ### Images -/

theorem acc_err (L : FloatLaws Φ) (D : DasData F) (k : ℕ → ℤ) (n : ℕ) (hf : Φ.fin (D.acc k n)) :
    |Φ.val (D.acc k n) - ∑ q ∈ Finset.range n, sampleAt (fun i => Φ.val (D.Y.data i)) D.len q (k q)| ≤
    ((1 + Φ.u) ^ n - 1) *
      ∑ q ∈ Finset.range n, |sampleAt (fun i => Φ.val (D.Y.data i)) D.len q (k q)| := by
  have hu := L.u_nonneg
  obtain ⟨_, h⟩ := fold_err (Φ := Φ) hu (le_refl (0 : ℝ)) (κ := 1) le_rfl
    (fun n => D.acc k n) (fun q => Φ.val (D.Y.data (q * D.len + (k q).toNat)))
    (fun q => 0 ≤ k q ∧ k q < (D.len : ℤ))
    (by
      intro n hn
      have hn' : ¬ D.hit k n := hn
      simp only [DasData.acc, if_neg hn'])
    (by
      intro n hn
      have hn' : D.hit k n := hn
      simp only [DasData.acc, if_pos hn']
      intro hf
      obtain ⟨g1, _, g3⟩ := L.add _ _ hf
      exact ⟨g1, _, g3, by simp⟩) n hf
  have e2 : ∀ q, |sampleAt (fun i => Φ.val (D.Y.data i)) D.len q (k q)| =
      if 0 ≤ k q ∧ k q < (D.len : ℤ) then |Φ.val (D.Y.data (q * D.len + (k q).toNat))| else 0 := by
    intro q
    unfold sampleAt
    split <;> simp
  simp only [e2]
  have e0 : D.acc k 0 = lit 0 := rfl
  simp only [e0, L.zero.2, zero_add, abs_zero, mul_zero, add_zero, one_mul] at h
  refine h.trans (mul_le_mul_of_nonneg_right ?_ (Finset.sum_nonneg fun q _ => ?_))
  · have : (1 + Φ.u) ^ ((Finset.range n).filter fun q => 0 ≤ k q ∧ k q < (D.len : ℤ)).card ≤
        (1 + Φ.u) ^ n :=
      pow_le_pow_right₀ (by linarith) ((Finset.card_filter_le _ _).trans (by simp))
    linarith
  · split
    · exact abs_nonneg _
    · exact le_rfl

/-- C73: a delay-and-sum image in floating point.  With the sample indices `k` the program computes,
every complete run of das leaves in each image point that is finite the exact sum of the A-scan
samples at those indices, up to `(1+u)^scans - 1` times the sum of their absolute values. -/
theorem C73_das (L : FloatLaws Φ) {C : DasCall F} {Im : Buf F} (h : C.Sized Im) (hr : C.Reads)
    (k : ℕ → ℕ → ℤ) (hk : ∀ n, n < C.No → C.Index n (k n)) (hok : codeOf C.level ≠ .outOfBounds)
    (nth : ℕ) (h1 : 1 ≤ nth) (as : List Act) (hab : Act.abort ∉ as) (s' : Sys F (Prog F SIRError))
    (hrun : C.drv.Run nth Im as s') (n : ℕ) (hn : n < C.No) (hf : Φ.fin (s'.mem.data n)) :
    |Φ.val (s'.mem.data n) -
      ∑ q ∈ Finset.range C.scans, sampleAt (fun i => Φ.val (C.Y.data i)) C.len q (k n q)| ≤
    ((1 + Φ.u) ^ C.scans - 1) *
      ∑ q ∈ Finset.range C.scans, |sampleAt (fun i => Φ.val (C.Y.data i)) C.len q (k n q)| := by
  rw [C30_image h hr k hk (.inl hok) nth h1 as hab s' hrun n hn] at hf ⊢
  exact acc_err L C.toDasData (k n) C.scans hf

/-! ### Non-vacuity -/

/-- Two columns of three samples filtered by two samples, in arithmetic with 53 binary digits. -/
noncomputable def exRndConv : ConvCall (Rnd 53) where
  aM := 3
  aN := 2
  A := ⟨6, fun i => ⟨(i : ℝ) + 1 / 3⟩⟩
  bM := 1
  bN := 2
  B := ⟨2, fun _ => ⟨1 / 7⟩⟩
  mode := .sum
  kind := .time

-- a complete run that meets the hypotheses of C73_conv_p: the error is below 2^-49
example : ∃ as s', Act.abort ∉ as ∧ exRndConv.Sized ⟨8, fun _ => ⟨1⟩⟩ ∧ exRndConv.accepted = true ∧
    exRndConv.drv.Run 2 ⟨8, fun _ => ⟨1⟩⟩ as s' ∧
    |(s'.mem.data 5).v - (1 + (3 + 1 / 3) * (1 / 7) + (4 + 1 / 3) * (1 / 7))| ≤ (1 / 2) ^ 49 := by
  have hs : exRndConv.Sized ⟨8, fun _ => ⟨1⟩⟩ :=
    ⟨le_refl 6, le_refl 2, by simp [exRndConv], by simp [exRndConv], by simp [exRndConv], rfl,
      by simp [exRndConv]⟩
  obtain ⟨as, s', g1, g2⟩ := (C29_terminates hs rfl 2).2.2
  refine ⟨as, s', g1, hs, rfl, g2, ?_⟩
  have := C73_conv_p (rndLaws 53) exRndConv _ hs rfl rfl 2 (by omega) as g1 s' g2 1
    (by simp [exRndConv]) 1 (by simp [exRndConv, ConvCall.len, ConvCall.bRows])
    (fun i => ((3 + i : ℕ) : ℝ) + 1 / 3) (fun _ => 1 / 7) 2 (by simp [exRndConv])
    (by intro i; simp [exRndConv, rndView]) (by intro j; simp [exRndConv, rndView]) trivial
  have hlen : exRndConv.len = 4 := rfl
  rw [hlen] at this
  simp only [exRndConv, rndView, stored, magnitude, linConv, Finset.sum_range_succ,
    Finset.sum_range_zero] at this
  norm_num at this
  norm_num
  rw [abs_le] at this ⊢
  constructor
  · linarith [this.1]
  · linarith [this.2]

/-- A natural number in the rounded arithmetic. -/
def rn {p : ℕ} (n : ℕ) : Rnd p := ⟨(n : ℝ)⟩

/-- Two elements at (0,0,8), (6,0,8), image point at the origin: both A-scans are read. -/
noncomputable def exRndDas : DasCall (Rnd 53) where
  Y := ⟨60000, fun i => ⟨(i : ℝ) / 3⟩⟩
  len := 30000
  ty := .signed
  level := .ignore
  dasType := .saft
  Gt := ⟨6, fun i => if i = 1 then rn 6 else if 4 ≤ i then rn 8 else rn 0⟩
  nt := 2
  Gr := ⟨0, fun _ => rn 0⟩
  nr := 0
  Ro := ⟨3, fun _ => rn 0⟩
  No := 1
  dt := rn 1
  cp := rn 1
  delayType := .single
  delay := ⟨1, fun _ => rn 0⟩

section
variable {p : ℕ}
theorem rnd_add (a b : ℕ) (h : a + b < 2 ^ p) : ((rn a : Rnd p) +. rn b) = rn (a + b) := by
  show (⟨roundTo p ((a : ℝ) + b)⟩ : Rnd p) = ⟨_⟩
  rw [← Nat.cast_add, roundTo_nat p _ h]
theorem rnd_mul (a b : ℕ) (h : a * b < 2 ^ p) : ((rn a : Rnd p) *. rn b) = rn (a * b) := by
  show (⟨roundTo p ((a : ℝ) * b)⟩ : Rnd p) = ⟨_⟩
  rw [← Nat.cast_mul, roundTo_nat p _ h]
theorem rnd_sub0 (a : ℕ) (h : a < 2 ^ p) : ((rn a : Rnd p) -. rn 0) = rn a := by
  show (⟨roundTo p ((a : ℝ) - (0 : ℕ))⟩ : Rnd p) = ⟨_⟩
  rw [Nat.cast_zero, sub_zero, roundTo_nat p _ h]
theorem rnd_div1 (a : ℕ) (h : a < 2 ^ p) : ((rn a : Rnd p) /. rn 1) = rn a := by
  show (⟨roundTo p ((a : ℝ) / (1 : ℕ))⟩ : Rnd p) = ⟨_⟩
  rw [Nat.cast_one, div_one, roundTo_nat p _ h]
theorem rnd_0div (b : ℕ) : ((rn 0 : Rnd p) /. rn b) = rn 0 := by
  show (⟨roundTo p (((0 : ℕ) : ℝ) / b)⟩ : Rnd p) = ⟨_⟩
  have := roundTo_nat p 0 (by positivity)
  rw [Nat.cast_zero] at this
  rw [Nat.cast_zero, zero_div, this]
theorem rnd_sqrt (a c : ℕ) (hc : c = a * a) (h : a < 2 ^ p) : Arith.sqrt (rn c : Rnd p) = rn a := by
  subst hc
  show (⟨roundTo p (Real.sqrt ((a * a : ℕ) : ℝ))⟩ : Rnd p) = ⟨_⟩
  rw [Nat.cast_mul, Real.sqrt_mul_self (Nat.cast_nonneg a), roundTo_nat p _ h]
theorem rnd_lit (n : ℕ) : (lit (n : ℚ) : Rnd p) = rn n := by
  show (⟨(((n : ℕ) : ℚ) : ℝ)⟩ : Rnd p) = ⟨_⟩
  simp
end

theorem exRndDas_dp (q : ℕ) (hq : q < 2) :
    exRndDas.dpTime 0 q *. fsKhz exRndDas.dt = rn (if q = 0 then 16000 else 20000) := by
  have l1 : (lit 1 : Rnd 53) = rn 1 := rnd_lit 1
  have l2 : (lit 2 : Rnd 53) = rn 2 := rnd_lit 2
  have l3 : (lit 1000 : Rnd 53) = rn 1000 := rnd_lit 1000
  have hm : exRndDas.method = .saft := by simp [exRndDas, DasCall.method]
  unfold DasCall.dpTime DasCall.pathTime DasCall.tTime
  rw [hm]
  have : q = 0 ∨ q = 1 := by omega
  rcases this with rfl | rfl
  · simp only [exRndDas, elemVal, travel, oneOver, fsKhz, delayMs, DasCall.xo, DasCall.yo, DasCall.zo,
      DasCall.delayAt, l1, l2, l3]
    norm_num only [if_true, if_false, ite_true, ite_false]
    rw [rnd_sub0 0 (by norm_num), rnd_sub0 8 (by norm_num), rnd_mul 0 0 (by norm_num),
      rnd_mul 8 8 (by norm_num), rnd_add _ _ (by norm_num), rnd_add _ _ (by norm_num),
      rnd_sqrt 8 _ (by norm_num) (by norm_num), rnd_div1 1 (by norm_num), rnd_mul _ _ (by norm_num),
      rnd_0div, rnd_add _ _ (by norm_num), rnd_mul _ _ (by norm_num), rnd_mul _ _ (by norm_num),
      rnd_mul _ _ (by norm_num)]
  · simp only [exRndDas, elemVal, travel, oneOver, fsKhz, delayMs, DasCall.xo, DasCall.yo, DasCall.zo,
      DasCall.delayAt, l1, l2, l3]
    norm_num only [if_true, if_false, ite_true, ite_false]
    rw [rnd_sub0 0 (by norm_num), rnd_sub0 8 (by norm_num), rnd_sub0 6 (by norm_num),
      rnd_mul 0 0 (by norm_num), rnd_mul 6 6 (by norm_num), rnd_mul 8 8 (by norm_num),
      rnd_add _ _ (by norm_num), rnd_add _ _ (by norm_num), rnd_sqrt 10 _ (by norm_num) (by norm_num),
      rnd_div1 1 (by norm_num), rnd_mul _ _ (by norm_num), rnd_0div, rnd_add _ _ (by norm_num),
      rnd_mul _ _ (by norm_num), rnd_mul _ _ (by norm_num), rnd_mul _ _ (by norm_num)]

-- a complete run that meets the hypotheses of C73_das
example : ∃ as s', Act.abort ∉ as ∧ exRndDas.Sized ⟨1, fun _ => ⟨9⟩⟩ ∧ exRndDas.Reads ∧
    exRndDas.drv.Run 2 ⟨1, fun _ => ⟨9⟩⟩ as s' ∧
    |(s'.mem.data 0).v - (16000 / 3 + 50000 / 3)| ≤ 1 / 10 ^ 10 := by
  have hm : exRndDas.method = .saft := by simp [exRndDas, DasCall.method]
  have hs : exRndDas.Sized ⟨1, fun _ => ⟨9⟩⟩ := by
    refine ⟨?_, ?_, ?_, ?_, ?_, ?_⟩ <;> simp [exRndDas, DasCall.scans, DasCall.method]
  have hsc : exRndDas.scans = 2 := by simp [exRndDas, DasCall.scans, DasCall.method]
  have hk : ∀ n, n < exRndDas.No → exRndDas.Index n fun q => if q = 0 then 16000 else 20000 := by
    intro n hn q hq
    have : n = 0 := by have : n < 1 := hn; omega
    subst this
    rw [hsc] at hq
    rw [exRndDas_dp q hq]
    show castIdx .signed (some (truncR ((if q = 0 then 16000 else 20000 : ℕ) : ℝ))) = _
    rw [truncR_nat _ rfl]
    have : q = 0 ∨ q = 1 := by omega
    rcases this with rfl | rfl <;> simp [castIdx, IdxTy.fits]
  obtain ⟨_, _, as, s', g1, g2⟩ := C30_terminates hs (.inl hm) (fun n hn => ⟨_, hk n hn⟩) 2
  refine ⟨as, s', g1, hs, .inl hm, g2, ?_⟩
  have := C73_das (rndLaws 53) hs (.inl hm) _ hk (by simp [exRndDas, codeOf]) 2 (by omega) as g1 s' g2 0
    (by simp [exRndDas]) trivial
  rw [hsc] at this
  have t1 : Int.toNat 16000 = 16000 := rfl
  have t2 : Int.toNat 20000 = 20000 := rfl
  simp only [Finset.sum_range_succ, Finset.sum_range_zero, sampleAt, exRndDas, rndView] at this
  norm_num [t1, t2] at this
  norm_num
  rw [abs_le] at this ⊢
  constructor
  · linarith [this.1]
  · linarith [this.2]

end Dream
