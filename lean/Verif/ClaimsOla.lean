import Verif.Ola
import Verif.ClaimsConv

/-
Claims about overlap-and-add convolution: C27, C28, C45.
-/

namespace Dream
open Arith Finset

/-! ### Exact arithmetic -/

/-- Contribution of input sample `p` to output sample `i`. -/
noncomputable def tap (x b : ℕ → ℝ) (aM bM p i : ℕ) : ℝ :=
  if p < aM then ∑ j ∈ range bM, if p + j = i then x p * b j else 0 else 0

theorem tap_zero (x b : ℕ → ℝ) (aM bM p i : ℕ) (h : i < p ∨ p + bM ≤ i) :
    tap x b aM bM p i = 0 := by
  unfold tap
  split
  · refine Finset.sum_eq_zero fun j hj => ?_
    rw [mem_range] at hj
    rw [if_neg (by omega)]
  · rfl

theorem linConv_eq_tap (x b : ℕ → ℝ) (aM bM i M : ℕ) (hM : aM ≤ M) :
    linConv x b aM bM i = ∑ p ∈ range M, tap x b aM bM p i := by
  rw [← Finset.sum_subset (Finset.range_mono hM)]
  · unfold linConv tap
    refine Finset.sum_congr rfl fun p hp => ?_
    rw [mem_range] at hp
    rw [if_pos hp]
  · intro p _ hp
    rw [mem_range] at hp
    unfold tap
    rw [if_neg hp]

/-- One block: the linear convolution of the zero-padded block is the contribution of its
samples. -/
theorem block_tap (x b u : ℕ → ℝ) (aM bM bl k i : ℕ) (hk : k ≤ i)
    (hu : ∀ j, j < bl → u j = if k + j < aM then x (k + j) else 0) :
    linConv u b bl bM (i - k) = ∑ p ∈ Ico k (k + bl), tap x b aM bM p i := by
  rw [Finset.sum_Ico_eq_sum_range, Nat.add_sub_cancel_left, linConv]
  refine Finset.sum_congr rfl fun p hp => ?_
  rw [mem_range] at hp
  rw [hu p hp]
  unfold tap
  by_cases h : k + p < aM
  · rw [if_pos h, if_pos h]
    refine Finset.sum_congr rfl fun j _ => ?_
    by_cases h2 : p + j = i - k
    · rw [if_pos h2, if_pos (by omega)]
    · rw [if_neg h2, if_neg (by omega)]
  · rw [if_neg h, if_neg h]
    refine Finset.sum_eq_zero fun j _ => ?_
    rw [zero_mul, ite_self]

/-- The first sample of the last block: blocks before it are full. -/
def lastBlock (aM bl : ℕ) : ℕ := bl * ((aM - 1) / bl)

theorem full_iff (aM bl q : ℕ) (hbl : 1 ≤ bl) (haM : 1 ≤ aM) :
    q * bl + bl < aM ↔ q * bl < lastBlock aM bl := by
  unfold lastBlock
  rw [Nat.mul_comm q, Nat.mul_lt_mul_left (by omega)]
  rw [Nat.lt_iff_add_one_le (m := q), Nat.le_div_iff_mul_le (by omega), Nat.add_mul, Nat.one_mul,
    Nat.mul_comm q bl]
  omega

namespace OlaCall

/-- The samples that a worker convolves when `Ap` points at index `ap` at the beginning of column
`n`: full blocks are taken from `ap` on, the last block from column `n`. -/
def seen {F : Type} (C : OlaCall F) (n ap i : ℕ) : F :=
  if i < lastBlock C.aM C.bl then C.A.data (ap + i) else C.A.data (n * C.aM + i)

/-- The remaining blocks add the contribution of the remaining samples. -/
theorem olaCol_real (C : OlaCall ℝ) (hL : C.L = exactLib) (hm : C.mode = .equ) (hbl : 1 ≤ C.bl)
    (hb : 1 ≤ C.bRows) (n ap : ℕ) : ∀ (fuel q : ℕ) (y c : ℕ → ℝ) (i : ℕ), i < C.len →
    C.olaCol n fuel (q * C.bl) (ap + q * C.bl) y c i =
      c i + ∑ p ∈ Ico (q * C.bl) (q * C.bl + fuel * C.bl),
        tap (C.seen n ap) (C.colB n) C.aM C.bRows p i
  | 0, q, y, c, i, hi => by simp [olaCol]
  | fuel + 1, q, y, c, i, hi => by
    simp only [olaCol]
    by_cases hk : q * C.bl < C.aM
    · rw [if_pos hk]
      have hyv : ∀ j, j < C.fftLen → C.yVal n (q * C.bl) (ap + q * C.bl) y j =
          linConv (C.blockVal n (q * C.bl) (ap + q * C.bl)) (C.colB n) C.bl C.bRows j := by
        intro j hj
        unfold yVal
        rw [hm, hL]
        simp only [storeVal]
        exact fftconvVal_real _ _ _ _ hbl hb j hj
      have hu : ∀ j, j < C.bl → C.blockVal n (q * C.bl) (ap + q * C.bl) j =
          if q * C.bl + j < C.aM then C.seen n ap (q * C.bl + j) else 0 := by
        intro j hj
        have hfi := full_iff C.aM C.bl q hbl (by omega)
        unfold blockVal seen
        by_cases hf : q * C.bl + C.bl < C.aM
        · have h5 : q * C.bl + j < lastBlock C.aM C.bl := by
            have h6 := hfi.mp hf
            unfold lastBlock at h6 ⊢
            rw [Nat.mul_comm q, Nat.mul_lt_mul_left (by omega)] at h6
            have : C.bl * (q + 1) ≤ C.bl * ((C.aM - 1) / C.bl) := Nat.mul_le_mul_left _ h6
            rw [Nat.mul_add, Nat.mul_comm C.bl q] at this
            omega
          rw [if_pos hf, if_pos (by omega), if_pos h5, Nat.add_assoc]
        · have h5 : ¬ q * C.bl + j < lastBlock C.aM C.bl := by
            have h6 := fun h => hf (hfi.mpr h)
            omega
          rw [if_neg hf]
          by_cases h7 : q * C.bl + j < C.aM
          · rw [if_pos (by omega), if_pos h7, if_neg h5]
            congr 1
            omega
          · rw [if_neg (by omega), if_neg h7]
            simp
      have hnext : ap + q * C.bl + (if q * C.bl + C.bl < C.aM then C.bl else C.aM - q * C.bl) =
          ap + (q + 1) * C.bl ∨ C.aM ≤ (q + 1) * C.bl := by
        rw [Nat.add_mul, Nat.one_mul]
        split <;> omega
      have hq1 : q * C.bl + C.bl = (q + 1) * C.bl := by rw [Nat.add_mul, Nat.one_mul]
      have hrest : ∀ (y c : ℕ → ℝ), C.olaCol n fuel (q * C.bl + C.bl)
          (ap + q * C.bl + if q * C.bl + C.bl < C.aM then C.bl else C.aM - q * C.bl) y c i =
          c i + ∑ p ∈ Ico ((q + 1) * C.bl) ((q + 1) * C.bl + fuel * C.bl),
            tap (C.seen n ap) (C.colB n) C.aM C.bRows p i := by
        intro y c
        rcases hnext with h8 | h8
        · rw [h8, hq1]
          exact olaCol_real C hL hm hbl hb n ap fuel (q + 1) y c i hi
        · have h9 : ∑ p ∈ Ico ((q + 1) * C.bl) ((q + 1) * C.bl + fuel * C.bl),
              tap (C.seen n ap) (C.colB n) C.aM C.bRows p i = 0 := by
            refine Finset.sum_eq_zero fun p hp => ?_
            rw [mem_Ico] at hp
            unfold tap
            rw [if_neg (by omega)]
          rw [h9, add_zero]
          cases fuel with
          | zero => rfl
          | succ f => simp only [olaCol]; rw [if_neg (by omega)]
      rw [hrest]
      have hsplit : ∑ p ∈ Ico (q * C.bl) (q * C.bl + (fuel + 1) * C.bl),
          tap (C.seen n ap) (C.colB n) C.aM C.bRows p i =
          ∑ p ∈ Ico (q * C.bl) (q * C.bl + C.bl), tap (C.seen n ap) (C.colB n) C.aM C.bRows p i +
          ∑ p ∈ Ico ((q + 1) * C.bl) ((q + 1) * C.bl + fuel * C.bl),
            tap (C.seen n ap) (C.colB n) C.aM C.bRows p i := by
        have h10 : q * C.bl + (fuel + 1) * C.bl = (q + 1) * C.bl + fuel * C.bl := by
          rw [Nat.add_mul, Nat.add_mul]; omega
        rw [h10, hq1]
        exact (Finset.sum_Ico_consecutive _ (by rw [← hq1]; omega) (by omega)).symm
      rw [hsplit, ← add_assoc]
      congr 1
      have hfl : C.fftLen = C.bl + C.bRows - 1 := rfl
      by_cases h3 : q * C.bl ≤ i ∧ i < q * C.bl + C.fftLen ∧ i < C.len
      · rw [if_pos h3, r_add, hyv _ (by omega),
          block_tap (C.seen n ap) (C.colB n) _ C.aM C.bRows C.bl (q * C.bl) i h3.1 hu]
      · rw [if_neg h3]
        have : ∑ p ∈ Ico (q * C.bl) (q * C.bl + C.bl),
            tap (C.seen n ap) (C.colB n) C.aM C.bRows p i = 0 := by
          refine Finset.sum_eq_zero fun p hp => ?_
          rw [mem_Ico] at hp
          refine tap_zero _ _ _ _ _ _ ?_
          omega
        rw [this, add_zero]
    · rw [if_neg hk]
      have : ∑ p ∈ Ico (q * C.bl) (q * C.bl + (fuel + 1) * C.bl),
          tap (C.seen n ap) (C.colB n) C.aM C.bRows p i = 0 := by
        refine Finset.sum_eq_zero fun p hp => ?_
        rw [mem_Ico] at hp
        unfold tap
        rw [if_neg (by omega)]
      rw [this, add_zero]

/-- A whole column in exact arithmetic. -/
theorem olaCol_conv (C : OlaCall ℝ) (hL : C.L = exactLib) (hm : C.mode = .equ) (hbl : 1 ≤ C.bl)
    (hb : 1 ≤ C.bRows) (n ap : ℕ) (y c : ℕ → ℝ) (i : ℕ) (hi : i < C.len) :
    C.olaCol n C.aM 0 ap y c i =
      c i + linConv (C.seen n ap) (C.colB n) C.aM C.bRows i := by
  have := olaCol_real C hL hm hbl hb n ap C.aM 0 y c i hi
  rw [Nat.zero_mul, Nat.add_zero, Nat.zero_add] at this
  rw [this, linConv_eq_tap _ _ _ _ i (C.aM * C.bl) (Nat.le_mul_of_pos_right _ hbl),
    Finset.range_eq_Ico]

end OlaCall

/-! ### The driver -/

theorem Prog.NoRet.bind_right {F α β : Type} (p : Prog F α) {f : α → Prog F β}
    (h : ∀ a, (f a).NoRet) : (p.bind f).NoRet := by
  induction p with
  | ret a => exact h a
  | bad e => trivial
  | spin => trivial
  | rd j k ih => exact fun v => ih v
  | wr j x p ih => exact ih

theorem one_column (No nth w : ℕ) (h1 : 1 ≤ nth) (h : No ≤ nth) :
    rangeStop No nth w ≤ rangeStart No nth w + 1 := by
  unfold rangeStop rangeStart
  calc (w + 1) * No / nth = (w * No + No) / nth := by rw [Nat.add_mul, Nat.one_mul]
    _ ≤ (w * No + nth) / nth := Nat.div_le_div_right (by omega)
    _ = w * No / nth + 1 := Nat.add_div_right _ (by omega)

theorem last_worker (No nth : ℕ) (h1 : 1 ≤ nth) (h : nth < No) :
    rangeStart No nth (nth - 1) + 2 ≤ No := by
  unfold rangeStart
  obtain ⟨m, rfl⟩ : ∃ m, nth = m + 1 := ⟨nth - 1, by omega⟩
  rw [Nat.add_sub_cancel]
  have h2 : m * No < (No - 1) * (m + 1) := by
    obtain ⟨d, rfl⟩ : ∃ d, No = m + 2 + d := ⟨No - (m + 2), by omega⟩
    rw [show m + 2 + d - 1 = m + 1 + d from by omega]
    nlinarith
  have := (Nat.div_lt_iff_lt_mul (k := m + 1) (by omega)).mpr h2
  omega

namespace OlaCall
variable {F : Type} [Arith F] {C : OlaCall F} {Y : Buf F}

/-- The condition under which every worker reads its own columns: B is a matrix, there is only one
block, or no worker has more than one column. -/
def Good (C : OlaCall F) (nth : ℕ) : Prop :=
  ¬ (C.bM = 1 ∨ C.bN = 1) ∨ C.bl = C.aM ∨ C.aN ≤ nth

theorem startOf_le (nth : ℕ) (h1 : 1 ≤ nth) (n : ℕ) (hn : n < C.aN) :
    startOf C.aN nth n ≤ n := by
  obtain ⟨w, _, g1, g2, g3⟩ := startOf_spec C.aN nth n h1 hn
  rw [g1]
  exact g2

/-- In the good case `Ap` points at column `n`, or there is only one block. -/
theorem ap_good (h : C.Sized Y) (hbl : 1 ≤ C.bl) (nth : ℕ) (h1 : 1 ≤ nth) (hg : C.Good nth) (n : ℕ)
    (hn : n < C.aN) :
    C.apAt (startOf C.aN nth n) (n - startOf C.aN nth n) = n * C.aM ∨ C.bl = C.aM := by
  rcases hg with hg | hg | hg
  · left
    have hb : 1 < C.bCols := by
      unfold bCols
      rw [if_neg hg]
      have := h.bN
      have h3 : ¬ C.bN = 1 := fun e => hg (.inr e)
      omega
    have hle := startOf_le (C := C) nth h1 n hn
    rw [apAt_eq C hbl, if_pos hb, Nat.add_zero, ← Nat.add_mul]
    congr 1
    omega
  · exact .inr hg
  · left
    obtain ⟨w, _, g1, g2, g3⟩ := startOf_spec C.aN nth n h1 hn
    have := one_column C.aN nth w h1 hg
    have hs : startOf C.aN nth n = n := by rw [g1]; omega
    rw [apAt_eq C hbl, hs, Nat.sub_self, Nat.zero_mul, Nat.add_zero]

theorem prog_ok (h : C.Sized Y) (ha : C.accepted = true) (hbl : 1 ≤ C.bl) (start : ℕ) {n : ℕ}
    (hn : n < C.aN)
    (hap : ∀ j, j + C.bl < C.aM → C.apAt start (n - start) + j + C.bl ≤ C.A.size) :
    (C.prog start n).Safe C.len (fun e => e = .none) ∧
    ∀ c, ∃ c', (C.prog start n).runCol C.len c = .ok (c', .none) ∧
      ∀ i, i < C.len →
        c' i = C.olaCol n C.aM 0 (C.apAt start (n - start)) (C.y0 n).data c i := by
  obtain ⟨g1, g2⟩ := olaLoop_ok h ha hbl hn C.aM 0 (C.apAt start (n - start)) (C.y0 n)
    (by rw [Nat.zero_add]; exact Nat.le_mul_of_pos_right _ hbl) (h.y0 n)
    (fun _ j hj => hap j (by omega))
  refine ⟨?_, fun c => ?_⟩
  · unfold prog
    exact Prog.Safe.bind (Q := fun _ => True) g1 (fun _ _ => rfl)
  · obtain ⟨c', e1, e2⟩ := g2 c
    refine ⟨c', ?_, e2⟩
    unfold prog
    rw [Prog.runCol_bind, e1]
    rfl

theorem good_ap (h : C.Sized Y) (hbl : 1 ≤ C.bl) (nth : ℕ) (h1 : 1 ≤ nth) (hg : C.Good nth)
    {n : ℕ} (hn : n < C.aN) (j : ℕ) (hj : j + C.bl < C.aM) :
    C.apAt (startOf C.aN nth n) (n - startOf C.aN nth n) + j + C.bl ≤ C.A.size := by
  rcases ap_good h hbl nth h1 hg n hn with e | e
  · rw [e, h.a]
    have h3 : (n + 1) * C.aM ≤ C.aN * C.aM := Nat.mul_le_mul_right _ hn
    rw [Nat.add_mul, Nat.one_mul, Nat.mul_comm C.aN] at h3
    omega
  · omega

theorem inside (h : C.Sized Y) (n : ℕ) (hn : n < C.aN) : n * C.len + C.len ≤ Y.size := by
  have h1 : (n + 1) * C.len ≤ C.aN * C.len := Nat.mul_le_mul_right _ hn
  rw [Nat.add_mul, Nat.one_mul, Nat.mul_comm C.aN] at h1
  rw [h.y]
  exact h1

theorem progOk (h : C.Sized Y) (ha : C.accepted = true) (hbl : 1 ≤ C.bl) (nth : ℕ) (h1 : 1 ≤ nth)
    (hg : C.Good nth) : ProgOk C.aN C.len (fun n => n * C.len) .none
      (fun n => C.prog (startOf C.aN nth n) n) Y where
  inside := inside h
  disj := fun i j _ _ hij => SirCall.cols_disj C.len i j hij
  safe := fun n hn => by
    obtain ⟨z', e, _⟩ := (prog_ok h ha hbl _ hn (good_ap h hbl nth h1 hg hn)).2
      (Y.getCol (n * C.len) C.len)
    rw [e]
    simp
  code := fun n hn r hr => by
    obtain ⟨z', e, _⟩ := (prog_ok h ha hbl _ hn (good_ap h hbl nth h1 hg hn)).2
      (Y.getCol (n * C.len) C.len)
    rw [e] at hr
    simp only [Outcome.ok.injEq] at hr
    subst hr
    exact .inl rfl

theorem faithful (h : C.Sized Y) (ha : C.accepted = true) (hbl : 1 ≤ C.bl) (nth : ℕ) (h1 : 1 ≤ nth)
    (hg : C.Good nth) : (C.drv nth).Faithful Y := Drv.ofProg_faithful (progOk h ha hbl nth h1 hg)

theorem defined (h : C.Sized Y) (ha : C.accepted = true) (hbl : 1 ≤ C.bl) (nth : ℕ) (h1 : 1 ≤ nth)
    (hg : C.Good nth) : (C.drv nth).Defined Y :=
  Drv.ofProg_defined (progOk h ha hbl nth h1 hg) fun n hn =>
    let ⟨z', e, _⟩ := (prog_ok h ha hbl _ hn (good_ap h hbl nth h1 hg hn)).2
      (Y.getCol (n * C.len) C.len)
    ⟨(z', .none), e⟩

theorem no_err (h : C.Sized Y) (ha : C.accepted = true) (hbl : 1 ≤ C.bl) (nth : ℕ) (h1 : 1 ≤ nth)
    (hg : C.Good nth) (n : ℕ) (hn : n < C.aN) : ¬ (C.drv nth).PointErr Y n .outOfBounds := by
  rintro ⟨fuel, m', hs⟩
  have hs' : (C.prog (startOf C.aN nth n) n).runBuf (n * C.len) Y = .ok (m', .outOfBounds) := hs
  obtain ⟨z', e, _⟩ := (prog_ok h ha hbl _ hn (good_ap h hbl nth h1 hg hn)).2
    (Y.getCol (n * C.len) C.len)
  obtain ⟨Y', f1, _⟩ := Prog.runBuf_at (n * C.len) C.len Y (inside h n hn) _ z' SIRError.none e
  rw [f1] at hs'
  simp at hs'

/-- What a complete run leaves in column `n`, for every arithmetic. -/
theorem run_col (h : C.Sized Y) (ha : C.accepted = true) (hbl : 1 ≤ C.bl) (nth : ℕ) (h1 : 1 ≤ nth)
    (hg : C.Good nth) (as : List Act) (hab : Act.abort ∉ as) (s' : Sys F (Prog F SIRError))
    (hr : (C.drv nth).Run nth Y as s') (n : ℕ) (hn : n < C.aN) (i : ℕ) (hi : i < C.len) :
    s'.mem.data (n * C.len + i) = C.olaCol n C.aM 0
      (C.apAt (startOf C.aN nth n) (n - startOf C.aN nth n)) (C.y0 n).data
      (fun i => Y.data (n * C.len + i)) i := by
  obtain ⟨z', e, hv⟩ := (prog_ok h ha hbl _ hn (good_ap h hbl nth h1 hg hn)).2
    (Y.getCol (n * C.len) C.len)
  obtain ⟨Y', f1, _, f3, _⟩ := Prog.runBuf_at (n * C.len) C.len Y (inside h n hn) _ z' SIRError.none e
  have hcol : s'.mem.data (n * C.len + i) = Y'.data (n * C.len + i) :=
    Drv.columns (faithful h ha hbl nth h1 hg) (defined h ha hbl nth h1 hg) nth h1 as hab
      (no_err h ha hbl nth h1 hg) s' hr n hn 0 Y' .none f1 i hi
  rw [hcol, f3 i hi, hv i hi]
  refine olaCol_congr C n _ _ _ _ _ _ _ (fun _ _ => rfl) ?_ i hi
  intro q hq
  simp only [Buf.getCol]
  rw [if_pos hq]

/-- A column whose first block is full and starts outside A is an out-of-bounds read. -/
theorem prog_bad (hbl : 1 ≤ C.bl) (hblock : C.bl < C.aM) (start n : ℕ)
    (hap : C.A.size ≤ C.apAt start (n - start)) : C.prog start n = .bad .oob := by
  have hblk : C.blockY n 0 (C.apAt start (n - start)) (C.y0 n) = .ub .oob := by
    unfold blockY blockSrc
    rw [if_pos (by omega)]
    simp only [Outcome.ok_bind]
    unfold fftconvLocal padCopy
    obtain ⟨b, hb⟩ : ∃ b, C.bl = b + 1 := ⟨C.bl - 1, by omega⟩
    have hrd : C.A.read ((C.apAt start (n - start) + 0 : ℕ) : Int) = .ub .oob := by
      unfold Buf.read
      rw [if_neg (by omega)]
    simp only [hb, forO, hrd, Outcome.bind]
  unfold prog
  obtain ⟨k, hk⟩ : ∃ k, C.aM = k + 1 := ⟨C.aM - 1, by omega⟩
  rw [hk]
  simp only [olaLoop]
  rw [if_pos (by omega), hblk]
  rfl

theorem prog_rets (C : OlaCall F) (start n : ℕ) :
    (C.prog start n).Rets (fun e => e ≠ .outOfBounds) := by
  unfold prog
  exact Prog.Rets.bind (Prog.Rets.trivial _) (fun _ _ => by simp [Prog.Rets])

end OlaCall

/-- C27: exactly the documented shapes are accepted, and block lengths (including zero, C45) up to the
length of the columns of A. -/
theorem C27_accepted {F : Type} [Arith F] (C : OlaCall F) :
    C.accepted = true ↔ (C.bM = 1 ∨ C.bN = 1 ∨ C.bN = C.aN) ∧ C.bl ≤ C.aM := by
  simp only [OlaCall.accepted, Bool.not_eq_true', Bool.and_eq_false_iff, bne_eq_false_iff_eq, or_assoc,
    Bool.and_eq_true, decide_eq_false_iff_not, gt_iff_lt, Nat.not_lt]

/-- C27: no schedule accesses memory out of bounds when B is a matrix (or there is one block, or
one column per worker). -/
theorem C27_no_oob {F : Type} [Arith F] {C : OlaCall F} {Y : Buf F} (h : C.Sized Y)
    (ha : C.accepted = true) (hbl : 1 ≤ C.bl) (nth : ℕ) (h1 : 1 ≤ nth) (hg : C.Good nth)
    (as : List Act) : exec (C.drv nth).task as (initSys C.aN nth Y) ≠ .ub .oob :=
  Drv.ofProg_no_oob (OlaCall.inside h)
    (fun _ hn => (OlaCall.prog_ok h ha hbl _ hn (OlaCall.good_ap h hbl nth h1 hg hn)).1.weaken
      fun _ _ => trivial) nth h1 as

/-- C27: every schedule is defined, the workers end, and a complete run exists. -/
theorem C27_terminates {F : Type} [Arith F] {C : OlaCall F} {Y : Buf F} (h : C.Sized Y)
    (ha : C.accepted = true) (hbl : 1 ≤ C.bl) (nth : ℕ) (h1 : 1 ≤ nth) (hg : C.Good nth) :
    (∀ as, ∃ s', exec (C.drv nth).task as (initSys C.aN nth Y) = .ok s') ∧
    (∃ B : ℕ → ℕ, ∀ as s', exec (C.drv nth).task as (initSys C.aN nth Y) = .ok s' →
      ∀ w, w < nth → B w ≤ as.count (.step w) → s'.isDone w) ∧
    ∃ as s', Act.abort ∉ as ∧ (C.drv nth).Run nth Y as s' :=
  have hf := OlaCall.faithful h ha hbl nth h1 hg
  have hd := OlaCall.defined h ha hbl nth h1 hg
  ⟨(Drv.terminates hf hd nth).1, (Drv.terminates hf hd nth).2,
    let ⟨_, s', g⟩ := Drv.run_exists hf hd nth
    ⟨_, s', g⟩⟩

/-- C27: with exact transforms and mode `=`, every complete run of fftconv_ola leaves in column `n`
its old contents (zero in a normal call) plus the linear convolution of column `n` of A with B or
its column `n`; for every block length, number of workers and schedule, and whatever the scratch
memory contains. -/
theorem C27_ola_exact (C : OlaCall ℝ) (Y : Buf ℝ) (h : C.Sized Y) (ha : C.accepted = true)
    (hbl : 1 ≤ C.bl) (hL : C.L = exactLib) (hm : C.mode = .equ) (nth : ℕ) (h1 : 1 ≤ nth)
    (hg : ¬ (C.bM = 1 ∨ C.bN = 1) ∨ C.bl = C.aM ∨ C.aN ≤ nth) (as : List Act)
    (hab : Act.abort ∉ as) (s' : Sys ℝ (Prog ℝ SIRError)) (hr : (C.drv nth).Run nth Y as s')
    (n : ℕ) (hn : n < C.aN) (i : ℕ) (hi : i < C.len) :
    s'.mem.data (n * C.len + i) = Y.data (n * C.len + i) +
      linConv (fun i => C.A.data (n * C.aM + i))
        (fun j => C.B.data (if C.bM = 1 ∨ C.bN = 1 then j else n * C.bM + j))
        C.aM (if C.bM = 1 ∨ C.bN = 1 then C.bM * C.bN else C.bM) i := by
  rw [OlaCall.run_col h ha hbl nth h1 hg as hab s' hr n hn i hi,
    OlaCall.olaCol_conv C hL hm hbl (OlaCall.bRows_pos h) n _ _ _ i hi]
  have hA : C.seen n (C.apAt (OlaCall.startOf C.aN nth n) (n - OlaCall.startOf C.aN nth n)) =
      fun i => C.A.data (n * C.aM + i) := by
    funext i
    unfold OlaCall.seen
    rcases OlaCall.ap_good h hbl nth h1 hg n hn with e | e
    · rw [e, ite_self]
    · have : lastBlock C.aM C.bl = 0 := by
        unfold lastBlock
        rw [e, Nat.div_eq_of_lt (by omega), Nat.mul_zero]
      rw [this, if_neg (by omega)]
  have hB : C.colB n = fun j => C.B.data (if C.bM = 1 ∨ C.bN = 1 then j else n * C.bM + j) := by
    funext i; simp only [OlaCall.colB]; rw [Nat.add_comm]
  rw [hA, hB]
  rfl

/-! ### Vector B -/

/-- C28: with B a vector, more than one block per column and fewer workers than columns, no
un-aborted schedule of fftconv_ola completes: the column read for the last column of the last
worker is past the end of A. -/
theorem C28_vector_reads_past_end {F : Type} [Arith F] (C : OlaCall F) (Y : Buf F) (h : C.Sized Y)
    (hbl : 1 ≤ C.bl) (hv : C.bM = 1 ∨ C.bN = 1) (hblock : C.bl < C.aM) (nth : ℕ) (h1 : 1 ≤ nth)
    (hnth : nth < C.aN) :
    C.accepted = true ∧
    C.prog (OlaCall.startOf C.aN nth (C.aN - 1)) (C.aN - 1) = .bad .oob ∧
    ∀ as s', Act.abort ∉ as → ¬ (C.drv nth).Run nth Y as s' := by
  have hlast : C.prog (OlaCall.startOf C.aN nth (C.aN - 1)) (C.aN - 1) = .bad .oob := by
    have hl := last_worker C.aN nth h1 hnth
    have hstop : rangeStop C.aN nth (nth - 1) = C.aN := by
      rw [rangeStop_eq, show nth - 1 + 1 = nth from by omega, rangeStart_last _ _ h1]
    have hs := startOf_eq C.aN nth (C.aN - 1) (nth - 1) (by omega) (by omega) (by omega)
    have hap : C.A.size ≤ C.apAt (OlaCall.startOf C.aN nth (C.aN - 1))
        (C.aN - 1 - OlaCall.startOf C.aN nth (C.aN - 1)) := by
      have hcols : ¬ 1 < C.bCols := by unfold OlaCall.bCols; rw [if_pos hv]; omega
      rw [OlaCall.apAt_eq C hbl, if_neg hcols, hs, h.a]
      have : C.aN ≤ rangeStart C.aN nth (nth - 1) + (C.aN - 1 - rangeStart C.aN nth (nth - 1)) * 2 := by
        omega
      calc C.aM * C.aN = C.aN * C.aM := Nat.mul_comm _ _
        _ ≤ (rangeStart C.aN nth (nth - 1) + (C.aN - 1 - rangeStart C.aN nth (nth - 1)) * 2) * C.aM :=
          Nat.mul_le_mul_right _ this
        _ = _ := by ring
    exact OlaCall.prog_bad hbl hblock _ _ hap
  refine ⟨?_, hlast, fun as s' hab => ?_⟩
  · unfold OlaCall.accepted
    rcases hv with e | e <;> simp [e] <;> omega
  · refine Drv.ofProg_stuck Y (C.aN - 1) (by omega) (by rw [hlast]; trivial) (fun n _ => ?_) nth h1
      as hab s'
    exact OlaCall.prog_rets C _ n

/-- C28: what the columns that are read inside A become: with B a vector, a worker whose range
starts at column `start` convolves, for column `n`, the full blocks of column `2n - start`
followed by the last block of column `n`. -/
theorem C28_vector_wrong_column (C : OlaCall ℝ) (Y : Buf ℝ) (h : C.Sized Y)
    (ha : C.accepted = true) (hbl : 1 ≤ C.bl) (hL : C.L = exactLib) (hm : C.mode = .equ)
    (hv : C.bM = 1 ∨ C.bN = 1) (start n : ℕ) (hs : start ≤ n) (hn : n < C.aN)
    (hin : 2 * n - start < C.aN) :
    ∃ Y', (C.prog start n).runBuf (n * C.len) Y = .ok (Y', .none) ∧
      ∀ i, i < C.len → Y'.data (n * C.len + i) = Y.data (n * C.len + i) +
        linConv (fun i => if i < lastBlock C.aM C.bl then C.A.data ((2 * n - start) * C.aM + i)
          else C.A.data (n * C.aM + i)) C.B.data C.aM (C.bM * C.bN) i := by
  have hcols : ¬ 1 < C.bCols := by unfold OlaCall.bCols; rw [if_pos hv]; omega
  have hap : C.apAt start (n - start) = (2 * n - start) * C.aM := by
    rw [OlaCall.apAt_eq C hbl, if_neg hcols]
    have : 2 * n - start = start + 2 * (n - start) := by omega
    rw [this]
    ring
  obtain ⟨_, g⟩ := OlaCall.prog_ok h ha hbl start hn (by
    intro j hj
    rw [hap, h.a]
    have h3 : (2 * n - start + 1) * C.aM ≤ C.aN * C.aM := Nat.mul_le_mul_right _ hin
    rw [Nat.add_mul, Nat.one_mul, Nat.mul_comm C.aN] at h3
    omega)
  obtain ⟨c', e1, e2⟩ := g (Y.getCol (n * C.len) C.len)
  obtain ⟨Y', f1, _, f3, _⟩ := Prog.runBuf_at (n * C.len) C.len Y (OlaCall.inside h n hn) _ c'
    SIRError.none e1
  refine ⟨Y', f1, fun i hi => ?_⟩
  rw [f3 i hi, e2 i hi, OlaCall.olaCol_conv C hL hm hbl (OlaCall.bRows_pos h) n _ _ _ i hi, hap]
  have hB : C.colB n = C.B.data := by
    funext i; simp only [OlaCall.colB]; rw [if_pos hv]
  have hR : C.bRows = C.bM * C.bN := by unfold OlaCall.bRows; rw [if_pos hv]
  rw [hB, hR]
  simp only [Buf.getCol]
  rw [if_pos hi]
  rfl

/-! ### Corner cases of the arguments -/

/-- C45: block length zero is accepted and then no un-aborted schedule completes (the block loop
does not advance). -/
theorem C45_zero_block {F : Type} [Arith F] (C : OlaCall F) (Y : Buf F) (hbl : C.bl = 0)
    (hb : C.bM = 1 ∨ C.bN = 1 ∨ C.bN = C.aN) (haM : 1 ≤ C.aM) (haN : 1 ≤ C.aN) (nth : ℕ)
    (h1 : 1 ≤ nth) :
    C.accepted = true ∧ ∀ as s', Act.abort ∉ as → ¬ (C.drv nth).Run nth Y as s' := by
  have hloop : ∀ (n fuel ap : ℕ) (y : Buf F), (C.olaLoop n fuel 0 ap y).NoRet := by
    intro n fuel
    induction fuel with
    | zero =>
      intro ap y
      simp only [OlaCall.olaLoop]
      rw [if_pos (by omega)]
      trivial
    | succ fuel ih =>
      intro ap y
      simp only [OlaCall.olaLoop]
      rw [if_pos (by omega)]
      refine Prog.NoRet.bind_right _ fun y' => Prog.NoRet.bind_right _ fun _ => ?_
      rw [hbl, Nat.add_zero]
      exact ih _ y'
  refine ⟨?_, fun as s' hab => ?_⟩
  · unfold OlaCall.accepted
    rcases hb with e | e | e <;> simp [e, hbl]
  · exact Drv.ofProg_stuck Y 0 haN (Prog.NoRet.bind (hloop _ _ _ _))
      (fun n _ => OlaCall.prog_rets C _ n) nth h1 as hab s'

/-- C45: in-place mode `=` does not replace the output: it becomes the convolution only where it
was zero before. -/
theorem C45_replace_mode_adds (C : OlaCall ℝ) (Y : Buf ℝ) (h : C.Sized Y) (ha : C.accepted = true)
    (hbl : 1 ≤ C.bl) (hL : C.L = exactLib) (hm : C.mode = .equ) (nth : ℕ) (h1 : 1 ≤ nth)
    (hg : ¬ (C.bM = 1 ∨ C.bN = 1) ∨ C.bl = C.aM ∨ C.aN ≤ nth) (as : List Act)
    (hab : Act.abort ∉ as) (s' : Sys ℝ (Prog ℝ SIRError)) (hr : (C.drv nth).Run nth Y as s')
    (n : ℕ) (hn : n < C.aN) (i : ℕ) (hi : i < C.len) :
    s'.mem.data (n * C.len + i) =
      linConv (fun i => C.A.data (n * C.aM + i))
        (fun j => C.B.data (if C.bM = 1 ∨ C.bN = 1 then j else n * C.bM + j))
        C.aM (if C.bM = 1 ∨ C.bN = 1 then C.bM * C.bN else C.bM) i ↔
    Y.data (n * C.len + i) = 0 := by
  rw [C27_ola_exact C Y h ha hbl hL hm nth h1 hg as hab s' hr n hn i hi]
  constructor
  · intro e; linarith
  · intro e; rw [e, zero_add]

/-- C45: in the in-place modes `+=` and `-=` the first sample of column `n` is the old value plus
what the worker's uninitialised vector `y` contained plus or minus the convolution. -/
theorem C45_inplace_uninitialised (C : OlaCall ℝ) (Y : Buf ℝ) (h : C.Sized Y)
    (ha : C.accepted = true) (hbl : 1 ≤ C.bl) (hL : C.L = exactLib) (hm : C.mode ≠ .equ) (nth : ℕ)
    (h1 : 1 ≤ nth) (hg : ¬ (C.bM = 1 ∨ C.bN = 1) ∨ C.bl = C.aM ∨ C.aN ≤ nth) (as : List Act)
    (hab : Act.abort ∉ as) (s' : Sys ℝ (Prog ℝ SIRError)) (hr : (C.drv nth).Run nth Y as s')
    (n : ℕ) (hn : n < C.aN) (haM : 1 ≤ C.aM) :
    s'.mem.data (n * C.len) = Y.data (n * C.len) + ((C.y0 n).data 0 +
      (if C.mode = .sum then 1 else -1) * (C.A.data (n * C.aM) *
        C.B.data (if C.bM = 1 ∨ C.bN = 1 then 0 else n * C.bM))) := by
  have hb := OlaCall.bRows_pos h
  have hfl : C.fftLen = C.bl + C.bRows - 1 := rfl
  have hlen : C.len = C.aM + C.bRows - 1 := rfl
  have hrun := OlaCall.run_col h ha hbl nth h1 hg as hab s' hr n hn 0 (by omega)
  rw [Nat.add_zero] at hrun
  rw [hrun]
  have hap := OlaCall.ap_good h hbl nth h1 hg n hn
  generalize C.apAt (OlaCall.startOf C.aN nth n) (n - OlaCall.startOf C.aN nth n) = ap at hap
  have hkeep : ∀ (fuel k ap : ℕ) (y c : ℕ → ℝ), 1 ≤ k → C.olaCol n fuel k ap y c 0 = c 0 := by
    intro fuel
    induction fuel with
    | zero => intro k ap y c _; rfl
    | succ fuel ih =>
      intro k ap y c hk
      simp only [OlaCall.olaCol]
      split
      · rw [ih _ _ _ _ (by omega), if_neg (by omega)]
      · rfl
  obtain ⟨k, hk⟩ : ∃ k, C.aM = k + 1 := ⟨C.aM - 1, by omega⟩
  have hstep : C.olaCol n C.aM 0 ap (C.y0 n).data (fun i => Y.data (n * C.len + i)) 0 =
      Y.data (n * C.len) + C.yVal n 0 ap (C.y0 n).data 0 := by
    rw [hk]
    simp only [OlaCall.olaCol]
    rw [if_pos (by omega), hkeep _ _ _ _ _ (by omega), if_pos (by omega), r_add, Nat.add_zero]
  rw [hstep]
  congr 1
  unfold OlaCall.yVal
  rw [hL, fftconvVal_real _ _ _ _ hbl hb 0 (by omega), storeVal_real]
  have hval : linConv (C.blockVal n 0 ap) (C.colB n) C.bl C.bRows 0 =
      C.A.data (n * C.aM) * C.B.data (if C.bM = 1 ∨ C.bN = 1 then 0 else n * C.bM) := by
    unfold linConv
    rw [Finset.sum_eq_single 0, inner_sum, if_pos (by omega)]
    · congr 1
      · unfold OlaCall.blockVal
        by_cases hf : 0 + C.bl < C.aM
        · rw [if_pos hf]
          rcases hap with e | e
          · rw [e, Nat.add_zero]
          · omega
        · rw [if_neg hf, if_pos (by omega), Nat.zero_add, Nat.add_zero]
      · unfold OlaCall.colB
        congr 1
        split
        · rfl
        · rw [Nat.sub_self, Nat.zero_add]
    · intro j _ hj
      refine Finset.sum_eq_zero fun q _ => ?_
      rw [if_neg (by omega)]
    · intro hj
      exact absurd (mem_range.mpr (by omega)) hj
  rw [hval]
  cases hmode : C.mode
  · exact absurd hmode hm
  · simp [stored]
  · simp [stored, sub_eq_add_neg]

/-! ### The hypotheses can be met -/

section Examples

/-- Three columns of five samples; block length 2. -/
noncomputable def exOla (bM bN : ℕ) (bl : ℕ) (N : ℕ) (mode : ConvMode) : OlaCall ℝ where
  aM := 5
  aN := 3
  A := ⟨15, fun i => i⟩
  bM := bM
  bN := bN
  B := ⟨bM * bN, fun i => i + 1⟩
  bl := bl
  mode := mode
  L := exactLib
  S := fun _ _ => exScratch N
  ab := fun _ _ => ⟨N, fun _ => 7⟩
  y0 := fun _ => ⟨N, fun _ => 7⟩

theorem exOla_sized (bM bN bl : ℕ) (m : ConvMode) (h : 1 ≤ bM) (h2 : 1 ≤ bN) :
    (exOla bM bN bl (exOla bM bN bl 0 m).fftLen m).Sized
      ⟨(exOla bM bN bl 0 m).len * 3, fun _ => 1⟩ where
  a := rfl
  b := rfl
  bM := h
  bN := h2
  y := rfl
  scratch := fun _ _ => ⟨rfl, rfl, rfl, rfl, rfl, rfl⟩
  ab := fun _ _ => rfl
  y0 := fun _ => rfl

-- C27, C45_replace_mode_adds: a matrix B, three blocks, two workers; there is a complete run
example : ∃ as s', Act.abort ∉ as ∧
    ((exOla 2 3 2 (exOla 2 3 2 0 .equ).fftLen .equ).drv 2).Run 2
      ⟨(exOla 2 3 2 0 .equ).len * 3, fun _ => 1⟩ as s' :=
  (C27_terminates (exOla_sized 2 3 2 .equ (by omega) (by omega)) (by simp [OlaCall.accepted, exOla])
    (by simp [exOla]) 2 (by omega) (.inl (by simp [exOla]))).2.2

-- C45_inplace_uninitialised
example : ∃ as s', Act.abort ∉ as ∧
    ((exOla 2 3 2 (exOla 2 3 2 0 .sum).fftLen .sum).drv 2).Run 2
      ⟨(exOla 2 3 2 0 .sum).len * 3, fun _ => 1⟩ as s' :=
  (C27_terminates (exOla_sized 2 3 2 .sum (by omega) (by omega)) (by simp [OlaCall.accepted, exOla])
    (by simp [exOla]) 2 (by omega) (.inl (by simp [exOla]))).2.2

-- C28: a vector B, two workers
example : ∀ as s', Act.abort ∉ as →
    ¬ ((exOla 2 1 2 (exOla 2 1 2 0 .equ).fftLen .equ).drv 2).Run 2
      ⟨(exOla 2 1 2 0 .equ).len * 3, fun _ => 1⟩ as s' :=
  (C28_vector_reads_past_end _ _ (exOla_sized 2 1 2 .equ (by omega) (by omega)) (by simp [exOla])
    (.inr rfl) (by simp [exOla]) 2 (by omega) (by simp [exOla])).2.2

-- C28_vector_wrong_column: one worker, column 1 is computed from column 2
example : (2 : ℕ) * 1 - 0 < (exOla 2 1 2 0 .equ).aN := by simp [exOla]

-- C45_zero_block
example : ∀ as s', Act.abort ∉ as → ¬ ((exOla 2 1 0 2 .equ).drv 2).Run 2 ⟨18, fun _ => 0⟩ as s' :=
  (C45_zero_block _ _ rfl (.inr (.inl rfl)) (by simp [exOla]) (by simp [exOla]) 2 (by omega)).2

end Examples

end Dream
