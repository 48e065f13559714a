import Verif.ConvP
import Verif.ExactFft
import Verif.ClaimsReal
import Verif.ProgBad
import Verif.Toy

/-
Claims about convolution: C24, C25, C26, C29, C44.
-/

namespace Dream
open Arith Finset

/-! ### Specification -/

/-- Sample `k` of the linear convolution of a vector of length `nx` with one of length `ny`. -/
noncomputable def linConv (x y : ℕ → ℝ) (nx ny k : ℕ) : ℝ :=
  ∑ i ∈ range nx, ∑ j ∈ range ny, if i + j = k then x i * y j else 0

/-- The three ways to store a result: `=`, `+=`, `-=`. -/
noncomputable def stored (mode : ConvMode) (old new : ℝ) : ℝ :=
  match mode with
  | .equ => new
  | .sum => old + new
  | .neg => old - new

/-! ### Time domain -/

theorem foldl_add_eq_sum (f : ℕ → ℝ) (n : ℕ) (z : ℝ) :
    (List.range n).foldl (fun z i => z + f i) z = z + ∑ i ∈ range n, f i := by
  induction n with
  | zero => simp
  | succ n ih =>
    rw [List.range_succ, List.foldl_append, ih, Finset.sum_range_succ]
    simp only [List.foldl_cons, List.foldl_nil]
    ring

theorem inner_sum (x : ℝ) (y : ℕ → ℝ) (i ny k : ℕ) :
    (∑ j ∈ range ny, if i + j = k then x * y j else 0) =
      if i ≤ k ∧ k - i < ny then x * y (k - i) else 0 := by
  by_cases h : i ≤ k ∧ k - i < ny
  · rw [if_pos h, Finset.sum_eq_single (k - i)]
    · rw [if_pos (by omega)]
    · intro j _ hj
      rw [if_neg (by omega)]
    · intro hj
      exact absurd (mem_range.mpr h.2) hj
  · rw [if_neg h]
    refine Finset.sum_eq_zero fun j hj => ?_
    rw [mem_range] at hj
    rw [if_neg (by omega)]

theorem convAcc_add (x y : ℕ → ℝ) (nx ny : ℕ) (z : ℝ) (k : ℕ) :
    convAcc Arith.add x y nx ny z k = z + linConv x y nx ny k := by
  have h : convAcc Arith.add x y nx ny z k = (List.range nx).foldl (fun z i =>
      z + ∑ j ∈ range ny, if i + j = k then x i * y j else 0) z := by
    unfold convAcc
    congr 1
    funext z i
    rw [inner_sum]
    split <;> simp
  rw [h, foldl_add_eq_sum, linConv]

theorem convAcc_sub (x y : ℕ → ℝ) (nx ny : ℕ) (z : ℝ) (k : ℕ) :
    convAcc Arith.sub x y nx ny z k = z - linConv x y nx ny k := by
  have h : convAcc Arith.sub x y nx ny z k = (List.range nx).foldl (fun z i =>
      z + -∑ j ∈ range ny, if i + j = k then x i * y j else 0) z := by
    unfold convAcc
    congr 1
    funext z i
    rw [inner_sum]
    split <;> simp [sub_eq_add_neg]
  rw [h, foldl_add_eq_sum, linConv, Finset.sum_neg_distrib, sub_eq_add_neg]

theorem convCol_real (mode : ConvMode) (x y : ℕ → ℝ) (nx ny : ℕ) (c : ℕ → ℝ) (k : ℕ) :
    convCol mode x y nx ny c k = stored mode (c k) (linConv x y nx ny k) := by
  cases mode
  · simp only [convCol, stored, convAcc_add, r_lit]; simp
  · simp only [convCol, stored, convAcc_add]
  · simp only [convCol, stored, convAcc_sub]

/-- A program that is defined on the column at `base` leaves all other memory as it is. -/
theorem Prog.runBuf_at {F : Type} [Arith F] (base len : ℕ) (m : Buf F) (hb : base + len ≤ m.size)
    {α : Type} (p : Prog F α) (c' : ℕ → F) (a : α)
    (h : p.runCol len (m.getCol base len) = .ok (c', a)) :
    ∃ m', p.runBuf base m = .ok (m', a) ∧ m'.size = m.size ∧
      (∀ i, i < len → m'.data (base + i) = c' i) ∧
      (∀ q, q < base ∨ base + len ≤ q → m'.data q = m.data q) := by
  refine ⟨m.setCol base len c', ?_, rfl, fun i hi => ?_, fun q hq => ?_⟩
  · rw [Prog.runBuf_col base len m hb p (by rw [h]; simp), h]
    rfl
  · show (if base ≤ base + i ∧ base + i < base + len then c' (base + i - base) else _) = _
    rw [if_pos (by omega), Nat.add_sub_cancel_left]
  · show (if base ≤ q ∧ q < base + len then c' (q - base) else _) = _
    rw [if_neg (by omega)]

/-- C24: `conv` on the output column at `base` of memory `Y`, with the inputs `x` and `y` in
buffers of `nx` and `ny` samples: the column is replaced by, incremented by or decremented by the
linear convolution; no other memory changes. -/
theorem C24_conv (x y : Buf ℝ) (hx : 1 ≤ x.size) (mode : ConvMode) (Y : Buf ℝ) (base : ℕ)
    (hb : base + (x.size + y.size - 1) ≤ Y.size) :
    ∃ Y', (conv (fun i => x.read (i : Int)) (fun j => y.read (j : Int)) x.size y.size mode).runBuf
        base Y = .ok (Y', ()) ∧ Y'.size = Y.size ∧
      (∀ k, k < x.size + y.size - 1 → Y'.data (base + k) =
        stored mode (Y.data (base + k)) (linConv x.data y.data x.size y.size k)) ∧
      (∀ q, q < base ∨ base + (x.size + y.size - 1) ≤ q → Y'.data q = Y.data q) := by
  have hx' : ∀ i, i < x.size → x.read (i : Int) = .ok (x.data i) := fun i hi => Buf.read_nat _ _ hi
  have hy' : ∀ i, i < y.size → y.read (i : Int) = .ok (y.data i) := fun i hi => Buf.read_nat _ _ hi
  obtain ⟨c', e1, e2⟩ := conv_run x.data y.data _ _ x.size y.size mode hx' hy'
    (Y.getCol base (x.size + y.size - 1))
  obtain ⟨Y', f1, f2, f3, f4⟩ := Prog.runBuf_at base _ Y hb _ c' () e1
  refine ⟨Y', f1, f2, fun k hk => ?_, f4⟩
  rw [f3 k hk, e2 k hk, convCol_real]
  simp only [Buf.getCol]
  rw [if_pos hk]

/-! ### FFT -/

theorem toC_prodSpec (x y : ℕ → ℝ) (nx ny N k : ℕ) :
    toC (prodSpec exactLib x y nx ny N k) =
      dft N (fun i => if i < nx then x i else 0) k * dft N (fun i => if i < ny then y i else 0) k := by
  unfold prodSpec
  rw [exact_cmul]
  have h : ∀ (n : ℕ) (x : ℕ → ℝ), toC (exactLib.r2c N
      (fun i => if i < N then (if i < n then x i else lit 0) else lit 0) k) =
      dft N (fun i => if i < n then x i else 0) k := by
    intro n x
    show dft N _ k = _
    unfold dft
    refine Finset.sum_congr rfl fun j hj => ?_
    rw [mem_range] at hj
    simp only [if_pos hj, r_lit, Rat.cast_zero]
  rw [h, h]

theorem c2r_prodSpec (x y : ℕ → ℝ) (nx ny : ℕ) (hnx : 1 ≤ nx) (hny : 1 ≤ ny) (i : ℕ)
    (hi : i < nx + ny - 1) :
    idftHalf (nx + ny - 1) (fun k => dft (nx + ny - 1) (fun i => if i < nx then x i else 0) k *
      dft (nx + ny - 1) (fun i => if i < ny then y i else 0) k) i =
      ((nx + ny - 1 : ℕ) : ℝ) * linConv x y nx ny i := by
  rw [idftHalf_dft_mul _ (by omega), circ_eq_lin nx ny _ (by omega) x y (by omega) (by omega) i hi,
    linConv]

theorem fftconvVal_real (x y : ℕ → ℝ) (nx ny : ℕ) (hnx : 1 ≤ nx) (hny : 1 ≤ ny) (i : ℕ)
    (hi : i < nx + ny - 1) : fftconvVal exactLib x y nx ny i = linConv x y nx ny i := by
  have hN : ((nx + ny - 1 : ℕ) : ℝ) ≠ 0 := by exact_mod_cast (by omega : nx + ny - 1 ≠ 0)
  unfold fftconvVal
  simp only [r_div, r_ofInt, Int.cast_natCast]
  rw [div_eq_iff hN, mul_comm, ← c2r_prodSpec x y nx ny hnx hny i hi]
  show idftHalf _ _ i = _
  apply idftHalf_congr
  intro k hk
  simp only [if_pos hk]
  exact toC_prodSpec x y nx ny _ k

theorem storeVal_real (mode : ConvMode) (z v : ℝ) : storeVal mode z v = stored mode z v := by
  cases mode <;> rfl

/-- C25: `fftconv` with exact transforms stores the linear convolution in all three modes,
whatever its scratch memory contains. -/
theorem C25_fftconv (x y : Buf ℝ) (hx : 1 ≤ x.size) (hy : 1 ≤ y.size) (mode : ConvMode)
    (S : Scratch ℝ) (hS : S.Sized (x.size + y.size - 1)) (Y : Buf ℝ) (base : ℕ)
    (hb : base + (x.size + y.size - 1) ≤ Y.size) :
    ∃ Y', (fftconv exactLib (fun i => x.read (i : Int)) (fun j => y.read (j : Int)) x.size y.size
        mode S).runBuf base Y = .ok (Y', ()) ∧ Y'.size = Y.size ∧
      (∀ k, k < x.size + y.size - 1 → Y'.data (base + k) =
        stored mode (Y.data (base + k)) (linConv x.data y.data x.size y.size k)) ∧
      (∀ q, q < base ∨ base + (x.size + y.size - 1) ≤ q → Y'.data q = Y.data q) := by
  have hx' : ∀ i, i < x.size → x.read (i : Int) = .ok (x.data i) := fun i hi => Buf.read_nat _ _ hi
  have hy' : ∀ i, i < y.size → y.read (i : Int) = .ok (y.data i) := fun i hi => Buf.read_nat _ _ hi
  obtain ⟨c', e1, e2⟩ := fftconv_run exactLib x.data y.data _ _ x.size y.size hx hy mode S hS
    hx' hy' (Y.getCol base (x.size + y.size - 1))
  obtain ⟨Y', f1, f2, f3, f4⟩ := Prog.runBuf_at base _ Y hb _ c' () e1
  refine ⟨Y', f1, f2, fun k hk => ?_, f4⟩
  rw [f3 k hk, e2 k hk, storeVal_real, fftconvVal_real _ _ _ _ hx hy k hk]
  simp only [Buf.getCol]
  rw [if_pos hk]

/-- C25: the transforms of length `N` are defined exactly if `N` is not zero, the real vector has `N` entries and the
complex one the `N/2+1` entries that FFTW accesses. -/
theorem C25_transform_memory {F : Type} [Arith F] (L : FFTLib F) (N : ℕ) (x : Buf F) (c : Buf (F × F)) :
    ((∃ r, L.fft N x c = .ok r) ↔ 1 ≤ N ∧ N ≤ x.size ∧ N / 2 < c.size) ∧
    ((∃ r, L.ifft N c x = .ok r) ↔ 1 ≤ N ∧ N ≤ x.size ∧ N / 2 < c.size) := by
  unfold FFTLib.fft FFTLib.ifft
  by_cases h0 : N = 0
  · subst h0; simp
  · rw [if_neg h0, if_neg h0]
    by_cases h1 : N ≤ x.size <;> by_cases h2 : N / 2 < c.size
    · rw [if_pos ⟨h1, h2⟩, if_pos ⟨h2, h1⟩]
      exact ⟨⟨fun _ => ⟨by omega, h1, h2⟩, fun _ => ⟨_, rfl⟩⟩, ⟨fun _ => ⟨by omega, h1, h2⟩, fun _ => ⟨_, rfl⟩⟩⟩
    all_goals
      rw [if_neg (by omega), if_neg (by omega)]
      constructor <;> constructor
      · rintro ⟨r, h⟩; simp at h
      · rintro ⟨_, a, b⟩; omega
      · rintro ⟨r, h⟩; simp at h
      · rintro ⟨_, a, b⟩; omega

/-- C25: FFT based and time domain convolution leave the same memory. -/
theorem C25_fftconv_eq_conv (x y : Buf ℝ) (hx : 1 ≤ x.size) (hy : 1 ≤ y.size) (mode : ConvMode)
    (S : Scratch ℝ) (hS : S.Sized (x.size + y.size - 1)) (Y : Buf ℝ) (base : ℕ)
    (hb : base + (x.size + y.size - 1) ≤ Y.size) :
    ∃ Y', (fftconv exactLib (fun i => x.read (i : Int)) (fun j => y.read (j : Int)) x.size y.size
        mode S).runBuf base Y = .ok (Y', ()) ∧
      (conv (fun i => x.read (i : Int)) (fun j => y.read (j : Int)) x.size y.size mode).runBuf
        base Y = .ok (Y', ()) := by
  obtain ⟨Y1, a1, a2, a3, a4⟩ := C25_fftconv x y hx hy mode S hS Y base hb
  obtain ⟨Y2, b1, b2, b3, b4⟩ := C24_conv x y hx mode Y base hb
  refine ⟨Y1, a1, ?_⟩
  have : Y2 = Y1 := by
    obtain ⟨s1, d1⟩ := Y1
    obtain ⟨s2, d2⟩ := Y2
    simp only at a2 b2 a3 b3 a4 b4
    have hd : d2 = d1 := by
      funext q
      by_cases h : q < base ∨ base + (x.size + y.size - 1) ≤ q
      · rw [a4 q h, b4 q h]
      · have := a3 (q - base) (by omega)
        have h2 := b3 (q - base) (by omega)
        rw [show base + (q - base) = q from by omega] at this h2
        rw [this, h2]
    rw [hd, a2, b2]
  rw [b1, this]

/-! ### Sum of convolutions -/

/-- What sum_fftconv is documented to return: the sum over inputs of the convolutions. -/
noncomputable def convSum (h u : ℕ → ℕ → ℝ) (L hLen uLen k : ℕ) : ℝ :=
  ∑ l ∈ range L, linConv (h l) (u l) hLen uLen k

theorem accSpec_real (h u : ℕ → ℕ → ℝ) (hLen uLen : ℕ) (h1 : 1 ≤ hLen) (h2 : 1 ≤ uLen) (L i : ℕ)
    (hi : i < hLen + uLen - 1) :
    idftHalf (hLen + uLen - 1) (fun k => toC (accSpec exactLib h u hLen uLen (hLen + uLen - 1) L k)) i
      = convSum h u L hLen uLen i := by
  have hN : ((hLen + uLen - 1 : ℕ) : ℝ) ≠ 0 := by exact_mod_cast (by omega : hLen + uLen - 1 ≠ 0)
  induction L with
  | zero =>
    have : (fun k => toC (accSpec exactLib h u hLen uLen (hLen + uLen - 1) 0 k)) = fun _ => 0 := by
      funext k
      simp [accSpec, toC, Complex.ext_iff]
    rw [this, idftHalf_zero]
    simp [convSum]
  | succ L ih =>
    have : (fun k => toC (accSpec exactLib h u hLen uLen (hLen + uLen - 1) (L + 1) k)) =
        fun k => (fun k => toC (accSpec exactLib h u hLen uLen (hLen + uLen - 1) L k)) k +
          (fun k => (dft (hLen + uLen - 1) (fun i => if i < hLen then h L i else 0) k *
              dft (hLen + uLen - 1) (fun i => if i < uLen then u L i else 0) k) *
            (((((hLen + uLen - 1 : ℕ) : ℝ)⁻¹ : ℝ) : ℂ))) k := by
      funext k
      simp only [accSpec]
      rw [exact_cadd, exact_cdivr, toC_prodSpec]
      simp only [r_ofInt, Int.cast_natCast, Complex.ofReal_inv]
      rw [div_eq_mul_inv]
    rw [this, idftHalf_add, ih]
    have h3 := idftHalf_smul (hLen + uLen - 1) (fun k =>
      dft (hLen + uLen - 1) (fun i => if i < hLen then h L i else 0) k *
        dft (hLen + uLen - 1) (fun i => if i < uLen then u L i else 0) k)
      (((hLen + uLen - 1 : ℕ) : ℝ)⁻¹) i
    rw [h3, c2r_prodSpec _ _ _ _ h1 h2 i hi, convSum, convSum, Finset.sum_range_succ]
    congr 1
    field_simp

theorem addFftVal_real (h u : ℕ → ℕ → ℝ) (hLen uLen : ℕ) (h1 : 1 ≤ hLen) (h2 : 1 ≤ uLen) (L i : ℕ)
    (hi : i < hLen + uLen - 1) :
    addFftVal exactLib h u L hLen uLen i =
      convSum h u L hLen uLen i / ((hLen + uLen - 1 : ℕ) : ℝ) := by
  unfold addFftVal
  simp only [r_div, r_ofInt, Int.cast_natCast]
  rw [← accSpec_real h u hLen uLen h1 h2 L i hi]
  congr 1
  show idftHalf _ _ i = _
  apply idftHalf_congr
  intro k hk
  simp only [if_pos hk]

/-- C26, worker: with exact transforms `add_fftconv` stores the sum of the convolutions divided by the FFT
length; mode `-=` stores it like `=`. -/
theorem C26_add_fftconv (h u : ℕ → Buf ℝ) (L hLen uLen : ℕ) (h1 : 1 ≤ hLen) (h2 : 1 ≤ uLen)
    (hh : ∀ l, l < L → (h l).size = hLen) (hu : ∀ l, l < L → (u l).size = uLen)
    (mode : ConvMode) (S : ℕ → Scratch ℝ) (hS : ∀ l, (S l).Sized (hLen + uLen - 1))
    (cf : Buf (ℝ × ℝ)) (c : Buf ℝ) (hcf : cf.size = hLen + uLen - 1) (hc : c.size = hLen + uLen - 1)
    (Y : Buf ℝ) (base : ℕ) (hb : base + (hLen + uLen - 1) ≤ Y.size) :
    ∃ Y', (addFftconv exactLib (fun l i => (h l).read (i : Int)) (fun l i => (u l).read (i : Int))
        L hLen uLen mode S cf c).runBuf base Y = .ok (Y', ()) ∧ Y'.size = Y.size ∧
      (∀ k, k < hLen + uLen - 1 → Y'.data (base + k) =
        (if mode = .sum then Y.data (base + k) else 0) +
          convSum (fun l => (h l).data) (fun l => (u l).data) L hLen uLen k /
            ((hLen + uLen - 1 : ℕ) : ℝ)) ∧
      (∀ q, q < base ∨ base + (hLen + uLen - 1) ≤ q → Y'.data q = Y.data q) := by
  obtain ⟨_, g⟩ := addFftconv_ok exactLib (fun l => (h l).data) (fun l => (u l).data)
    (fun l i => (h l).read (i : Int)) (fun l i => (u l).read (i : Int)) L hLen uLen h1 h2 mode S hS
    (fun l hl i hi => Buf.read_nat _ _ (by rw [hh l hl]; exact hi))
    (fun l hl i hi => Buf.read_nat _ _ (by rw [hu l hl]; exact hi)) cf c hcf hc
  obtain ⟨c', e1, e2⟩ := g (Y.getCol base (hLen + uLen - 1))
  obtain ⟨Y', f1, f2, f3, f4⟩ := Prog.runBuf_at base _ Y hb _ c' () e1
  refine ⟨Y', f1, f2, fun k hk => ?_, f4⟩
  rw [f3 k hk, e2 k hk, storeVal_real, addFftVal_real _ _ _ _ h1 h2 _ k hk]
  simp only [Buf.getCol]
  rw [if_pos hk]
  cases mode <;> simp [addMode, stored]

/-- C26: the value stored by mode `=` is the sum of the convolutions (which is how the help texts
describe the result; their pseudo code has the division) iff the FFT length is one or the sum is
zero. -/
theorem C26_plain_sum_iff (N : ℕ) (s : ℝ) (hN : 1 ≤ N) :
    s / (N : ℝ) = s ↔ N = 1 ∨ s = 0 := by
  have hN' : (N : ℝ) ≠ 0 := by exact_mod_cast (by omega : N ≠ 0)
  rw [div_eq_iff hN']
  constructor
  · intro h
    by_cases hs : s = 0
    · exact .inr hs
    · refine .inl ?_
      have : (N : ℝ) = 1 := by
        have h3 : s * (N : ℝ) = s * 1 := by rw [← h, mul_one]
        exact mul_left_cancel₀ hs h3
      exact_mod_cast this
  · rintro (h | h)
    · rw [h]; simp
    · rw [h]; simp

/-! ### The drivers -/

section ConvRuns
variable {F : Type} [Arith F] {C : ConvCall F} {Y : Buf F}

/-- C29: exactly the documented shapes are accepted: the second argument is a vector, or a matrix with
as many columns as the first. -/
theorem C29_accepted (C : ConvCall F) :
    C.accepted = true ↔ C.bM = 1 ∨ C.bN = 1 ∨ C.bN = C.aN := by
  simp only [ConvCall.accepted, Bool.not_eq_true', Bool.and_eq_false_iff, bne_eq_false_iff_eq, or_assoc]

/-- C29: for accepted arguments no schedule of conv_p / fftconv_p, with any number of workers,
aborted or not, accesses memory out of bounds. -/
theorem C29_no_oob (h : C.Sized Y) (ha : C.accepted = true) (nth : ℕ) (h1 : 1 ≤ nth)
    (as : List Act) : exec C.drv.task as (initSys C.aN nth Y) ≠ .ub .oob :=
  Drv.ofProg_no_oob (ConvCall.inside h)
    (fun _ hn => (ConvCall.prog_safe h ha hn).weaken fun _ _ => trivial) nth h1 as

/-- C29: every schedule is defined and the workers end. -/
theorem C29_terminates (h : C.Sized Y) (ha : C.accepted = true) (nth : ℕ) :
    (∀ as, ∃ s', exec C.drv.task as (initSys C.aN nth Y) = .ok s') ∧
    (∃ B : ℕ → ℕ, ∀ as s', exec C.drv.task as (initSys C.aN nth Y) = .ok s' →
      ∀ w, w < nth → B w ≤ as.count (.step w) → s'.isDone w) ∧
    ∃ as s', Act.abort ∉ as ∧ C.drv.Run nth Y as s' :=
  ⟨(Drv.terminates (ConvCall.faithful h ha) (ConvCall.defined h ha) nth).1,
    (Drv.terminates (ConvCall.faithful h ha) (ConvCall.defined h ha) nth).2,
    let ⟨_, s', g⟩ := Drv.run_exists (ConvCall.faithful h ha) (ConvCall.defined h ha) nth
    ⟨_, s', g⟩⟩

theorem ConvCall.no_err (h : C.Sized Y) (ha : C.accepted = true) (n : ℕ) (hn : n < C.aN) :
    ¬ C.drv.PointErr Y n .outOfBounds := by
  rintro ⟨fuel, m', hs⟩
  have hs' : (C.prog n).runBuf (n * C.len) Y = .ok (m', .outOfBounds) := hs
  obtain ⟨z', e, _⟩ := ConvCall.prog_run h ha hn (Y.getCol (n * C.len) C.len)
  obtain ⟨Y', f1, _⟩ := Prog.runBuf_at (n * C.len) C.len Y (ConvCall.inside h n hn) (C.prog n) z'
    .none e
  rw [f1] at hs'
  simp at hs'

/-- C29: every complete run that is not aborted leaves, in column `n`, exactly what the convolution
of column `n` alone leaves. -/
theorem C29_columns (h : C.Sized Y) (ha : C.accepted = true) (nth : ℕ) (h1 : 1 ≤ nth)
    (as : List Act) (hab : Act.abort ∉ as) (s' : Sys F (Prog F SIRError))
    (hr : C.drv.Run nth Y as s') (n : ℕ) (hn : n < C.aN) (Y' : Buf F) (e : SIRError)
    (hser : (C.prog n).runBuf (n * C.len) Y = .ok (Y', e)) (i : ℕ) (hi : i < C.len) :
    s'.mem.data (n * C.len + i) = Y'.data (n * C.len + i) :=
  Drv.columns (ConvCall.faithful h ha) (ConvCall.defined h ha) nth h1 as hab
    (ConvCall.no_err h ha) s' hr n hn 0 Y' e hser i hi

/-- C29: all complete runs leave the same matrix. -/
theorem C29_same_matrix (h : C.Sized Y) (ha : C.accepted = true)
    (nth₁ nth₂ : ℕ) (h1 : 1 ≤ nth₁) (h2 : 1 ≤ nth₂) (as₁ as₂ : List Act)
    (ha₁ : Act.abort ∉ as₁) (ha₂ : Act.abort ∉ as₂) (s₁ s₂ : Sys F (Prog F SIRError))
    (hr₁ : C.drv.Run nth₁ Y as₁ s₁) (hr₂ : C.drv.Run nth₂ Y as₂ s₂) :
    s₁.mem.size = s₂.mem.size ∧ ∀ i, i < s₁.mem.size → s₁.mem.data i = s₂.mem.data i :=
  Drv.same_matrix (ConvCall.faithful h ha) (ConvCall.defined h ha) (ConvCall.no_err h ha)
    nth₁ nth₂ h1 h2 as₁ as₂ ha₁ ha₂ s₁ s₂ hr₁ hr₂

/-- C29: in a run interrupted by the signal handler every column is either complete or
untouched. -/
theorem C29_interrupted (h : C.Sized Y) (ha : C.accepted = true) (nth : ℕ) (h1 : 1 ≤ nth)
    (as : List Act) (s' : Sys F (Prog F SIRError)) (hr : C.drv.Run nth Y as s') (n : ℕ)
    (hn : n < C.aN) :
    (∀ Y' e, (C.prog n).runBuf (n * C.len) Y = .ok (Y', e) →
      ∀ i, i < C.len → s'.mem.data (n * C.len + i) = Y'.data (n * C.len + i)) ∨
    (∀ i, i < C.len → s'.mem.data (n * C.len + i) = Y.data (n * C.len + i)) := by
  rcases (Drv.whole_columns (D := C.drv) (ConvCall.faithful h ha) (ConvCall.defined h ha) nth h1 as
    s' hr).1 n hn with g | g
  · exact .inl fun Y' e he => g 0 Y' e he
  · exact .inr g

end ConvRuns

/-- C29, C24, C25 together: with exact arithmetic every complete run of conv_p or fftconv_p, for
any accepted argument, number of workers and schedule, leaves in column `n` of the output the
linear convolution of column `n` of `A` with `B` (a vector) or with column `n` of `B` (a
matrix). -/
theorem C29_conv_p_exact (C : ConvCall ℝ) (Y : Buf ℝ) (h : C.Sized Y) (ha : C.accepted = true)
    (hk : C.kind = .time ∨ ∃ S, C.kind = .fft exactLib S) (nth : ℕ) (h1 : 1 ≤ nth)
    (as : List Act) (hab : Act.abort ∉ as) (s' : Sys ℝ (Prog ℝ SIRError))
    (hr : C.drv.Run nth Y as s') (n : ℕ) (hn : n < C.aN) (i : ℕ) (hi : i < C.len) :
    s'.mem.data (n * C.len + i) = stored C.mode (Y.data (n * C.len + i))
      (linConv (fun i => C.A.data (n * C.aM + i))
        (fun j => C.B.data (if C.bM = 1 ∨ C.bN = 1 then j else n * C.bM + j))
        C.aM (if C.bM = 1 ∨ C.bN = 1 then C.bM * C.bN else C.bM) i) := by
  obtain ⟨z', e, hv⟩ := ConvCall.prog_run h ha hn (Y.getCol (n * C.len) C.len)
  obtain ⟨Y', f1, _, f3, _⟩ := Prog.runBuf_at (n * C.len) C.len Y (ConvCall.inside h n hn)
    (C.prog n) z' .none e
  rw [C29_columns h ha nth h1 as hab s' hr n hn Y' .none f1 i hi, f3 i hi, hv i hi]
  have hy : Y.getCol (n * C.len) C.len i = Y.data (n * C.len + i) := by
    simp only [Buf.getCol]; rw [if_pos hi]
  have hA : C.colA n = fun i => C.A.data (n * C.aM + i) := by
    funext i; simp only [ConvCall.colA]; rw [Nat.add_comm]
  have hB : C.colB n = fun j => C.B.data (if C.bM = 1 ∨ C.bN = 1 then j else n * C.bM + j) := by
    funext i; simp only [ConvCall.colB]; rw [Nat.add_comm]
  unfold ConvCall.colVal
  rcases hk with hk | ⟨S, hk⟩
  · rw [hk]
    simp only
    rw [convCol_real, hy, hA, hB]
    rfl
  · rw [hk]
    simp only
    rw [storeVal_real, fftconvVal_real _ _ _ _ h.aM (ConvCall.bRows_pos h) i hi, hy, hA, hB]
    rfl

/-- C26: every complete run of sum_fftconv with exact transforms, for every accepted argument
whose `U` is not a row vector, leaves in column `n` the sum of the convolutions divided by
the FFT length, added to the old contents in mode `+=` and replacing them in modes `=` and `-=`. -/
theorem C26_sum_fftconv_exact (C : SumCall ℝ) (Y : Buf ℝ) (h : C.Sized Y)
    (ha : C.accepted = true) (hu : ¬ (C.uM = 1 ∧ 1 < C.uN)) (hk : C.L = exactLib) (nth : ℕ)
    (h1 : 1 ≤ nth) (as : List Act) (hab : Act.abort ∉ as) (s' : Sys ℝ (Prog ℝ SIRError))
    (hr : C.drv.Run nth Y as s') (n : ℕ) (hn : n < C.hN) (i : ℕ) (hi : i < C.hM + C.uM - 1) :
    s'.mem.data (n * (C.hM + C.uM - 1) + i) =
      (if C.mode = .sum then Y.data (n * (C.hM + C.uM - 1) + i) else 0) +
      convSum (fun l i => C.H.data (i + n * C.hM + C.hM * C.hN * l))
        (fun l i => C.U.data (i + l * C.uM)) C.hL C.hM C.uM i / ((C.hM + C.uM - 1 : ℕ) : ℝ) := by
  have hLN : C.hL = C.uN := by simpa [SumCall.accepted] using ha
  have hr1 := SumCall.uRows_eq hu (by rw [← hLN]; exact h.hL)
  have hlen : C.len = C.hM + C.uM - 1 := by unfold SumCall.len; rw [hr1]
  rw [← hlen] at hi ⊢
  obtain ⟨z', e, hv⟩ := (SumCall.prog_ok h ha hu hn).2 (Y.getCol (n * C.len) C.len)
  obtain ⟨Y', f1, _, f3, _⟩ := Prog.runBuf_at (n * C.len) C.len Y (SumCall.inside h n hn)
    (C.prog n) z' .none e
  have hok : ∀ n, n < C.hN → ¬ C.drv.PointErr Y n .outOfBounds := by
    rintro n hn ⟨fuel, m', hs⟩
    have hs' : (C.prog n).runBuf (n * C.len) Y = .ok (m', .outOfBounds) := hs
    obtain ⟨z', e, _⟩ := (SumCall.prog_ok h ha hu hn).2 (Y.getCol (n * C.len) C.len)
    obtain ⟨Y', f1, _⟩ := Prog.runBuf_at (n * C.len) C.len Y (SumCall.inside h n hn) (C.prog n) z'
      .none e
    rw [f1] at hs'
    simp at hs'
  have hcol : s'.mem.data (n * C.len + i) = Y'.data (n * C.len + i) :=
    Drv.columns (SumCall.faithful h ha hu) (SumCall.defined h ha hu) nth h1 as hab hok s' hr n hn 0
      Y' .none f1 i hi
  rw [hcol, f3 i hi, hv i hi, storeVal_real, hk]
  rw [addFftVal_real _ _ _ _ h.hM h.uM _ i (by rw [← hlen]; exact hi), ← hlen]
  simp only [Buf.getCol]
  rw [if_pos hi]
  have hH : C.colH n = fun l i => C.H.data (i + n * C.hM + C.hM * C.hN * l) := rfl
  have hU : C.colU = fun l i => C.U.data (i + l * C.uM) := rfl
  rw [hH, hU]
  cases C.mode <;> simp [addMode, stored]

/-! ### Row vector input of sum_fftconv -/

section RowVector
variable {F : Type} [Arith F] {C : SumCall F} {Y : Buf F}

/-- With a row vector the program of every observation point is an out-of-bounds access. -/
theorem SumCall.row_bad (h : C.Sized Y) (ha : C.accepted = true) (hu : C.uM = 1 ∧ 1 < C.uN)
    (n : ℕ) (hn : n < C.hN) : C.prog n = .bad .oob := by
  have hLN : C.hL = C.uN := by simpa [SumCall.accepted] using ha
  have hr : C.uRows = C.uN := by
    unfold SumCall.uRows
    rw [if_pos (.inl hu.1), hu.1, Nat.one_mul]
  have hlen : C.hM + C.uRows - 1 = C.len := rfl
  have hus : C.U.size = C.uN := by rw [h.u, hu.1, Nat.one_mul]
  have hM := h.hM
  have hrU : ∀ i, i < C.uRows → C.rdU 0 i = .ok (C.U.data i) := by
    intro i hi
    unfold SumCall.rdU
    rw [Nat.zero_mul, Nat.add_zero, Buf.read_nat _ _ (by rw [hus, ← hr]; exact hi)]
  have hbadU : C.rdU 1 0 = .ub .oob := by
    unfold SumCall.rdU Buf.read
    rw [if_neg]
    rw [hus, hr]
    omega
  obtain ⟨cf0, a1, a2, _⟩ := forO_map
    (fun (k : Nat) (b : Buf (F × F)) => b.write (k : Int) (lit 0, lit 0))
    (fun _ _ => (lit 0, lit 0)) C.len C.len 0 (by omega) (C.cf n) (h.cf n) (fun i _ _ b _ => rfl)
  obtain ⟨cf1, b1, b2, _⟩ := addFftStep_ok C.L (C.colH n 0) (fun i => C.U.data i) (C.rdH n 0)
    (C.rdU 0) C.hM C.uRows h.hM (by rw [hr]; omega) (C.S n 0) (h.scratch n 0)
    (SumCall.rdH_ok h hn (by omega)) hrU cf0 a2
  obtain ⟨a, d1, _⟩ := padCopy_ok (C.rdH n 1) (C.colH n 1) C.hM C.len (by unfold SumCall.len; omega)
    (C.S n 1).a (h.scratch n 1).a (SumCall.rdH_ok h hn (by omega))
  have hpad : padCopy (C.rdU 1) C.uRows C.len (C.S n 1).b = .ub .oob := by
    unfold padCopy
    obtain ⟨k, hk⟩ : ∃ k, C.uRows = k + 1 := ⟨C.uRows - 1, by omega⟩
    rw [hk]
    simp only [forO, hbadU, Outcome.bind]
  have hstep : addFftStep C.L (C.rdH n 1) (C.rdU 1) C.hM C.uRows (C.S n 1) cf1 = .ub .oob := by
    unfold addFftStep
    simp only [hlen, d1, Outcome.ok_bind, hpad, Outcome.bind]
  obtain ⟨k, hk⟩ : ∃ k, C.hL = k + 2 := ⟨C.hL - 2, by omega⟩
  unfold SumCall.prog addFftconv
  simp only [hlen, a1, Outcome.ok_bind, hk, forO, b1, hstep, Outcome.bind]
  rfl

/-- C44: sum_fftconv accepts a row vector `U` of `L > 1` entries when `H` has `L` responses per
point, and then no un-aborted schedule, with any number of workers, completes; the first worker to
take two steps reads outside `U`. -/
theorem C44_row_vector (h : C.Sized Y) (hu : C.uM = 1 ∧ 1 < C.uN) (hL : C.hL = C.uN)
    (hN : 1 ≤ C.hN) (nth : ℕ) (h1 : 1 ≤ nth) :
    C.accepted = true ∧
    (∀ as s', Act.abort ∉ as → ¬ C.drv.Run nth Y as s') ∧
    ∃ w, w < nth ∧ ∀ as, exec C.drv.task (.step w :: .step w :: as) (initSys C.hN nth Y)
      = .ub .oob := by
  have ha : C.accepted = true := by simp [SumCall.accepted, hL]
  have hb := SumCall.row_bad h ha hu
  refine ⟨ha, fun as s' hab => ?_, ?_⟩
  · refine Drv.ofProg_stuck Y 0 hN (by rw [hb 0 hN]; trivial) (fun n hn => ?_) nth h1 as hab s'
    rw [hb n hn]
    trivial
  · obtain ⟨w, hw, g1, g2⟩ := owner_exists C.hN nth 0 h1 hN
    refine ⟨w, hw, fun as => Drv.ofProg_hits_bad Y nth w hw (by omega) .oob ?_ as⟩
    exact hb _ (by omega)

/-- C44: with any other shape of `U` that passes the check nothing is accessed out of bounds. -/
theorem C44_other_shapes_safe (h : C.Sized Y) (ha : C.accepted = true)
    (hu : ¬ (C.uM = 1 ∧ 1 < C.uN)) (nth : ℕ) (h1 : 1 ≤ nth) (as : List Act) :
    exec C.drv.task as (initSys C.hN nth Y) ≠ .ub .oob :=
  Drv.ofProg_no_oob (SumCall.inside h)
    (fun _ hn => (SumCall.prog_ok h ha hu hn).1.weaken fun _ _ => trivial) nth h1 as

end RowVector

/-! ### The hypotheses can be met -/

section Examples

noncomputable def exScratch (N : ℕ) : Scratch ℝ where
  a := ⟨N, fun _ => 7⟩
  b := ⟨N, fun _ => 7⟩
  c := ⟨N, fun _ => 7⟩
  af := ⟨N, fun _ => (7, 7)⟩
  bf := ⟨N, fun _ => (7, 7)⟩
  cf := ⟨N, fun _ => (7, 7)⟩

/-- Two columns of three samples, filtered by a row vector of two samples. -/
noncomputable def exConv (k : ConvKind ℝ) : ConvCall ℝ where
  aM := 3
  aN := 2
  A := ⟨6, fun i => i⟩
  bM := 1
  bN := 2
  B := ⟨2, fun i => i + 1⟩
  mode := .sum
  kind := k

theorem exConv_sized (k : ConvKind ℝ) (hk : ∀ L S, k = .fft L S → ∀ n, (S n).Sized 4) :
    (exConv k).Sized ⟨8, fun _ => 1⟩ :=
  ⟨le_refl 6, le_refl 2, by simp [exConv], by simp [exConv], by simp [exConv], rfl, hk⟩

example : (exConv (.fft exactLib fun _ => exScratch 4)).Sized ⟨8, fun _ => 1⟩ ∧
    (exConv (.fft exactLib fun _ => exScratch 4)).accepted = true ∧
    ∃ as s', Act.abort ∉ as ∧
      (exConv (.fft exactLib fun _ => exScratch 4)).drv.Run 2 ⟨8, fun _ => 1⟩ as s' ∧
      -- sample 1 of column 1: 1 + (3*2 + 4*1)
      s'.mem.data 5 = 11 := by
  have hs : (exConv (.fft exactLib fun _ => exScratch 4)).Sized ⟨8, fun _ => 1⟩ := by
    refine exConv_sized _ ?_
    intro L S e n
    obtain ⟨rfl, rfl⟩ := (ConvKind.fft.injEq _ _ _ _).mp e
    exact ⟨rfl, rfl, rfl, rfl, rfl, rfl⟩
  refine ⟨hs, rfl, ?_⟩
  obtain ⟨as, s', g1, g2⟩ := (C29_terminates hs rfl 2).2.2
  refine ⟨as, s', g1, g2, ?_⟩
  have := C29_conv_p_exact _ _ hs rfl (.inr ⟨_, rfl⟩) 2 (by omega) as g1 s' g2 1
    (by simp [exConv]) 1 (by simp [exConv, ConvCall.len, ConvCall.bRows])
  simp only [ConvCall.len, ConvCall.bRows, exConv] at this
  norm_num [linConv, stored, Finset.sum_range_succ] at this
  exact this

/-- A 2 x 1 response for two inputs. -/
noncomputable def exSum (uM uN : ℕ) (N : ℕ) : SumCall ℝ where
  hM := 2
  hN := 1
  hL := 2
  H := ⟨4, fun i => i + 1⟩
  uM := uM
  uN := uN
  U := ⟨uM * uN, fun i => i + 1⟩
  mode := .neg
  L := exactLib
  S := fun _ _ => exScratch N
  cf := fun _ => ⟨N, fun _ => (7, 7)⟩
  c := fun _ => ⟨N, fun _ => 7⟩

theorem exSum_sized (uM uN : ℕ) (h : 1 ≤ uM) :
    (exSum uM uN (exSum uM uN 0).len).Sized ⟨(exSum uM uN 0).len, fun _ => 5⟩ where
  h := rfl
  u := rfl
  hM := by simp [exSum]
  hL := by simp [exSum]
  uM := h
  y := by show _ = _ * 1; rw [Nat.mul_one]; rfl
  scratch := fun _ _ => ⟨rfl, rfl, rfl, rfl, rfl, rfl⟩
  cf := fun _ => rfl
  c := fun _ => rfl

-- hypotheses of C26_sum_fftconv_exact and C44_other_shapes_safe
example : (exSum 2 2 (exSum 2 2 0).len).Sized ⟨(exSum 2 2 0).len, fun _ => 5⟩ ∧
    (exSum 2 2 (exSum 2 2 0).len).accepted = true ∧
    ¬ ((exSum 2 2 (exSum 2 2 0).len).uM = 1 ∧ 1 < (exSum 2 2 (exSum 2 2 0).len).uN) :=
  ⟨exSum_sized 2 2 (by omega), rfl, by simp [exSum]⟩

-- hypotheses of C44_row_vector
example : (exSum 1 2 (exSum 1 2 0).len).Sized ⟨(exSum 1 2 0).len, fun _ => 5⟩ ∧
    (exSum 1 2 (exSum 1 2 0).len).uM = 1 ∧ 1 < (exSum 1 2 (exSum 1 2 0).len).uN ∧
    (exSum 1 2 (exSum 1 2 0).len).hL = (exSum 1 2 (exSum 1 2 0).len).uN :=
  ⟨exSum_sized 1 2 (by omega), rfl, by simp [exSum], rfl⟩

end Examples

end Dream
