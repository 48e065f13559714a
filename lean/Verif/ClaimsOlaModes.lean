import Verif.ClaimsWholeConv2

/-
C45, C87, continued: the modes `+=` and `-=` of fftconv_ola.  The vector `y` of a worker is neither cleared at the
beginning nor between two blocks, and the mode applies to it: every block is added with all blocks before it.
-/

namespace Dream
open Finset

/-- Sample `l` of the convolution of block `p` (`bl` samples of the column `x` of `aM` samples, zeros after its end)
with `b`. -/
noncomputable def blockConv (x b : ℕ → ℝ) (aM bM bl p l : ℕ) : ℝ :=
  linConv (fun j => if p * bl + j < aM then x (p * bl + j) else 0) b bl bM l

/-- What fftconv_ola adds to sample `i` in the modes `+=` (`sgn = 1`) and `-=` (`sgn = -1`): for every block `q` that
reaches the sample, the contents `y0` of the scratch vector and the convolutions of the blocks 0 to `q`. -/
noncomputable def olaAdded (sgn : ℝ) (x b y0 : ℕ → ℝ) (aM bM bl i : ℕ) : ℝ :=
  ∑ q ∈ range aM, if q * bl < aM ∧ q * bl ≤ i ∧ i < q * bl + (bl + bM - 1) then
    y0 (i - q * bl) + sgn * ∑ p ∈ range (q + 1), blockConv x b aM bM bl p (i - q * bl) else 0

/-- The sign of a mode. -/
noncomputable def modeSign (m : ConvMode) : ℝ := if m = .neg then -1 else 1

namespace OlaCall

theorem olaCol_modes (C : OlaCall ℝ) (hL : C.L = exactLib) (hm : C.mode ≠ .equ) (hbl : 1 ≤ C.bl)
    (hb : 1 ≤ C.bRows) (n ap : ℕ) (hap : ap = n * C.aM ∨ C.bl = C.aM) (y0 : ℕ → ℝ) :
    ∀ (fuel q : ℕ) (y c : ℕ → ℝ) (i : ℕ), i < C.len → (C.aM ≤ C.bl → q = 0 ∨ C.aM ≤ q * C.bl) →
    (∀ l, l < C.fftLen → y l = y0 l + modeSign C.mode *
      ∑ p ∈ range q, blockConv (fun i => C.A.data (n * C.aM + i)) (C.colB n) C.aM C.bRows C.bl p l) →
    C.olaCol n fuel (q * C.bl) (ap + q * C.bl) y c i =
      c i + ∑ k ∈ Ico q (q + fuel),
        if k * C.bl < C.aM ∧ k * C.bl ≤ i ∧ i < k * C.bl + (C.bl + C.bRows - 1) then
          y0 (i - k * C.bl) + modeSign C.mode * ∑ p ∈ range (k + 1),
            blockConv (fun i => C.A.data (n * C.aM + i)) (C.colB n) C.aM C.bRows C.bl p (i - k * C.bl) else 0
  | 0, q, y, c, i, hi, _, hy => by simp [olaCol]
  | fuel + 1, q, y, c, i, hi, hq, hy => by
    simp only [olaCol]
    have hfl : C.fftLen = C.bl + C.bRows - 1 := rfl
    have hzero : ∀ k, C.aM ≤ k * C.bl → (∑ k ∈ Ico k (k + fuel),
        if k * C.bl < C.aM ∧ k * C.bl ≤ i ∧ i < k * C.bl + (C.bl + C.bRows - 1) then
          y0 (i - k * C.bl) + modeSign C.mode * ∑ p ∈ range (k + 1),
            blockConv (fun i => C.A.data (n * C.aM + i)) (C.colB n) C.aM C.bRows C.bl p (i - k * C.bl) else 0) = 0 := by
      intro k hk
      refine Finset.sum_eq_zero fun j hj => ?_
      rw [mem_Ico] at hj
      have : k * C.bl ≤ j * C.bl := Nat.mul_le_mul_right _ hj.1
      rw [if_neg (by omega)]
    rw [show q + (fuel + 1) = (q + 1) + fuel by omega, ← Finset.sum_Ico_consecutive _ (Nat.le_succ q) (by omega),
      Finset.sum_Ico_succ_top (le_refl q), Finset.Ico_self, Finset.sum_empty, zero_add]
    have hq1 : q * C.bl + C.bl = (q + 1) * C.bl := by rw [Nat.add_mul, Nat.one_mul]
    by_cases hk : q * C.bl < C.aM
    · rw [if_pos hk]
      have hu : ∀ j, j < C.bl → C.blockVal n (q * C.bl) (ap + q * C.bl) j =
          if q * C.bl + j < C.aM then C.A.data (n * C.aM + (q * C.bl + j)) else 0 := by
        intro j hj
        unfold blockVal
        by_cases hf : q * C.bl + C.bl < C.aM
        · rw [if_pos hf, if_pos (by omega)]
          rcases hap with e | e
          · rw [e, Nat.add_assoc]
          · omega
        · rw [if_neg hf]
          by_cases h7 : q * C.bl + j < C.aM
          · rw [if_pos (by omega), if_pos h7]
            congr 1
            omega
          · rw [if_neg (by omega), if_neg h7]
            simp
      have hyv : ∀ j, j < C.fftLen → C.yVal n (q * C.bl) (ap + q * C.bl) y j = y0 j + modeSign C.mode *
          ∑ p ∈ range (q + 1), blockConv (fun i => C.A.data (n * C.aM + i)) (C.colB n) C.aM C.bRows C.bl p j := by
        intro j hj
        have e : fftconvVal exactLib (C.blockVal n (q * C.bl) (ap + q * C.bl)) (C.colB n) C.bl C.bRows j =
            blockConv (fun i => C.A.data (n * C.aM + i)) (C.colB n) C.aM C.bRows C.bl q j := by
          rw [fftconvVal_real _ _ _ _ hbl hb j hj]
          unfold blockConv linConv
          refine Finset.sum_congr rfl fun p hp => ?_
          rw [mem_range] at hp
          rw [hu p hp]
        unfold yVal
        rw [hL, e, storeVal_real, Finset.sum_range_succ, hy j hj]
        cases hmode : C.mode with
        | equ => exact absurd hmode hm
        | sum => simp only [stored, modeSign, reduceCtorEq, if_false]; ring
        | neg => simp only [stored, modeSign, if_true]; ring
      have hrest : ∀ c : ℕ → ℝ, C.olaCol n fuel (q * C.bl + C.bl)
          (ap + q * C.bl + if q * C.bl + C.bl < C.aM then C.bl else C.aM - q * C.bl)
          (C.yVal n (q * C.bl) (ap + q * C.bl) y) c i =
          c i + ∑ k ∈ Ico (q + 1) (q + 1 + fuel),
            if k * C.bl < C.aM ∧ k * C.bl ≤ i ∧ i < k * C.bl + (C.bl + C.bRows - 1) then
              y0 (i - k * C.bl) + modeSign C.mode * ∑ p ∈ range (k + 1),
                blockConv (fun i => C.A.data (n * C.aM + i)) (C.colB n) C.aM C.bRows C.bl p (i - k * C.bl)
            else 0 := by
        intro c
        by_cases h8 : C.aM ≤ (q + 1) * C.bl
        · rw [hzero _ h8, add_zero]
          cases fuel with
          | zero => rfl
          | succ f => simp only [olaCol]; rw [if_neg (by omega)]
        · rw [if_pos (by omega), hq1, show ap + q * C.bl + C.bl = ap + (q + 1) * C.bl by omega]
          exact olaCol_modes C hL hm hbl hb n ap hap y0 fuel (q + 1) _ c i hi
            (fun g => by
              have : 1 * C.bl ≤ (q + 1) * C.bl := Nat.mul_le_mul_right _ (by omega)
              omega) hyv
      rw [hrest, ← add_assoc]
      congr 1
      by_cases h3 : q * C.bl ≤ i ∧ i < q * C.bl + C.fftLen
      · rw [if_pos ⟨h3.1, h3.2, hi⟩, if_pos ⟨hk, h3.1, by omega⟩, r_add, hyv _ (by omega)]
      · rw [if_neg (by omega), if_neg (by omega), add_zero]
    · rw [if_neg hk, if_neg (by omega), hzero (q + 1) (by omega), zero_add, add_zero]

/-- A whole column in the modes `+=` and `-=`. -/
theorem run_modes {C : OlaCall ℝ} {Y : Buf ℝ} (h : C.Sized Y)
    (hbl : 1 ≤ C.bl) (hL : C.L = exactLib) (hm : C.mode ≠ .equ) (nth : ℕ) (h1 : 1 ≤ nth)
    (hg : C.Good nth) (n : ℕ) (hn : n < C.aN) (y0 c : ℕ → ℝ) (i : ℕ) (hi : i < C.len) :
    C.olaCol n C.aM 0 (C.apAt (startOf C.aN nth n) (n - startOf C.aN nth n)) y0 c i =
      c i + olaAdded (modeSign C.mode) (fun i => C.A.data (n * C.aM + i))
        (fun j => C.B.data (if C.bM = 1 ∨ C.bN = 1 then j else n * C.bM + j)) y0 C.aM
        (if C.bM = 1 ∨ C.bN = 1 then C.bM * C.bN else C.bM) C.bl i := by
  have key := olaCol_modes C hL hm hbl (bRows_pos h) n _ (ap_good h hbl nth h1 hg n hn) y0 C.aM 0 y0 c i hi
    (fun _ => .inl rfl) (fun l _ => by simp)
  rw [Nat.zero_mul, Nat.add_zero, Nat.zero_add] at key
  rw [key]
  have hB : C.colB n = fun j => C.B.data (if C.bM = 1 ∨ C.bN = 1 then j else n * C.bM + j) := by
    funext i; simp only [OlaCall.colB]; rw [Nat.add_comm]
  rw [hB, ← Finset.range_eq_Ico]
  rfl

end OlaCall

/-- C45, a violation: what the modes `+=` and `-=` of fftconv_ola leave, exactly: the old value, and for every block
that reaches the sample the old contents of the scratch vector and plus or minus the convolutions of this block
and, at the same offset, of all blocks before it. -/
theorem C45_inplace_exact (C : OlaCall ℝ) (Y : Buf ℝ) (h : C.Sized Y) (ha : C.accepted = true) (hbl : 1 ≤ C.bl)
    (hL : C.L = exactLib) (hm : C.mode ≠ .equ) (nth : ℕ) (h1 : 1 ≤ nth)
    (hg : ¬ (C.bM = 1 ∨ C.bN = 1) ∨ C.bl = C.aM ∨ C.aN ≤ nth) (as : List Act) (hab : Act.abort ∉ as)
    (s' : Sys ℝ (Prog ℝ SIRError)) (hr : (C.drv nth).Run nth Y as s') (n : ℕ) (hn : n < C.aN) (i : ℕ) (hi : i < C.len) :
    s'.mem.data (n * C.len + i) = Y.data (n * C.len + i) +
      olaAdded (if C.mode = .neg then -1 else 1) (fun i => C.A.data (n * C.aM + i))
        (fun j => C.B.data (if C.bM = 1 ∨ C.bN = 1 then j else n * C.bM + j)) (C.y0 n).data C.aM
        (if C.bM = 1 ∨ C.bN = 1 then C.bM * C.bN else C.bM) C.bl i := by
  rw [OlaCall.run_col h ha hbl nth h1 hg as hab s' hr n hn i hi,
    OlaCall.run_modes h hbl hL hm nth h1 hg n hn _ _ i hi]
  rfl

/-- With one block the convolution is added, and the old contents of the scratch vector. -/
theorem olaAdded_one (sgn : ℝ) (x b y0 : ℕ → ℝ) (aM bM i : ℕ) (h1 : 1 ≤ aM) (hi : i < aM + bM - 1) :
    olaAdded sgn x b y0 aM bM aM i = y0 i + sgn * linConv x b aM bM i := by
  unfold olaAdded
  rw [Finset.sum_eq_single 0]
  · rw [if_pos ⟨by omega, by omega, by omega⟩]
    simp only [Nat.zero_mul, Nat.sub_zero, Finset.sum_range_one, Nat.zero_add]
    congr 2
    unfold blockConv linConv
    refine Finset.sum_congr rfl fun p hp => ?_
    rw [mem_range] at hp
    simp only [Nat.zero_mul, Nat.zero_add, if_pos hp]
  · intro q _ hq
    have : 1 * aM ≤ q * aM := Nat.mul_le_mul_right _ (by omega)
    rw [if_neg (by omega)]
  · intro h
    exact absurd (mem_range.2 (by omega)) h

theorem OlaCall.ola_serial_modes (C : OlaCall ℝ) (Y : Buf ℝ) (h : C.Sized Y) (ha : C.accepted = true)
    (hbl : 1 ≤ C.bl) (hL : C.L = exactLib) (hm : C.mode ≠ .equ) (nth : ℕ) (h1 : 1 ≤ nth)
    (hg : C.Good nth) (n : ℕ) (hn : n < C.aN) :
    ∃ m', (C.drv nth).serialAt n 0 Y = .ok (m', .none) ∧ ∀ i, i < C.len →
      m'.data (n * C.len + i) = Y.data (n * C.len + i) +
      olaAdded (if C.mode = .neg then -1 else 1) (fun i => C.A.data (n * C.aM + i))
        (fun j => C.B.data (if C.bM = 1 ∨ C.bN = 1 then j else n * C.bM + j)) (C.y0 n).data C.aM
        (if C.bM = 1 ∨ C.bN = 1 then C.bM * C.bN else C.bM) C.bl i := by
  obtain ⟨z', e, _⟩ := (OlaCall.prog_ok h ha hbl _ hn (OlaCall.good_ap h hbl nth h1 hg hn)).2
    (Y.getCol (n * C.len) C.len)
  obtain ⟨Y', f1, _, _, _⟩ := Prog.runBuf_at (n * C.len) C.len Y (OlaCall.inside h n hn) _ z'
    SIRError.none e
  refine ⟨Y', f1, fun i hi => ?_⟩
  obtain ⟨k, s', g1, g2⟩ := Drv.run_exists (OlaCall.faithful h ha hbl nth h1 hg)
    (OlaCall.defined h ha hbl nth h1 hg) nth
  rw [← C45_inplace_exact C Y h ha hbl hL hm nth h1 hg _ g1 s' g2 n hn i hi]
  exact (Drv.columns (OlaCall.faithful h ha hbl nth h1 hg) (OlaCall.defined h ha hbl nth h1 hg) nth h1 _ g1
    (OlaCall.no_err h ha hbl nth h1 hg) s' g2 n hn 0 Y' .none f1 i hi).symm

/-- C87, a violation: the documented calls of fftconv_ola with `+=` or `-=`, on every machine and for every schedule:
the matrix that was given is not changed by the convolution but by `olaAdded`, which depends on the contents of the
scratch memory and, with two blocks or more, counts blocks several times. -/
theorem C87_ola_modes_violated (fe : ConvFront) (M : ℕ → OlaScratch ℝ) (imp : Str → Bool) (wis : Str) (A B Bl : HMat ℝ)
    (x : ℝ) (b1 : Bl.rows = 1) (b2 : Bl.cols = 1) (hx : Bl.data 0 = x) (x1 : 1 ≤ x) (xb : ⌊x⌋₊ < 2 ^ 63)
    (hxr : ⌊x⌋₊ ≤ A.rows) (extra : List (MArg ℝ)) (mode : ConvMode) (hm : mode ≠ .equ) (out : Option (MArg ℝ))
    (hd : Doc (RealWisdom imp) extra mode out) (hsh : Shapes A B) (h2 : 1 ≤ B.rows) (h3 : 1 ≤ B.cols)
    (hM : (M ⌊x⌋₊).Sized (⌊x⌋₊ + filtLen B.rows B.cols - 1))
    (hs : ∀ y, out = some y → y.rows = convRows A B ∧ y.cols = A.cols) (hw : ℕ) (env : Option String)
    (hg : ¬ (B.rows = 1 ∨ B.cols = 1) ∨ ⌊x⌋₊ = A.rows ∨
      ∀ nth, chooseThreads fe.idx.cnt hw env A.cols = some nth → A.cols ≤ nth) (s : ConvSeen ℝ) :
    (olaJob fe exactLib M imp wis A B Bl extra 0).Sees fe hw env s ↔
      s = (open Classical in if BadEnv env then .thrown else
        convMeant (convRows A B) A.cols none out fun n i =>
          oldVal out (n * convRows A B + i) + olaAdded (if mode = .neg then -1 else 1)
            (fun i => A.data (n * A.rows + i))
            (fun j => B.data (if B.rows = 1 ∨ B.cols = 1 then j else n * B.rows + j)) ((M ⌊x⌋₊).y0 n).data A.rows
            (filtLen B.rows B.cols) ⌊x⌋₊ i) := by
  have hf := C52_documented fe imp 0 (convRows A B) A.cols extra mode out hd (by omega) (fun _ => rfl) hs
  obtain ⟨he, hdrv⟩ := olaJob_early fe exactLib M imp wis A B Bl extra 0 (by omega) hsh x b1 b2 hx
    (by linarith) xb hxr
  unfold fftconvFront at hf
  rw [if_neg (by omega)] at hf
  cases ho : convOpts fe 0 extra with
  | error e => rw [ho] at hf; simp at hf
  | ok o =>
    rw [ho] at hf
    obtain ⟨Y, hY, hsz, hold⟩ := ConvJob.mem_old (olaJob fe exactLib M imp wis A B Bl extra 0) out rfl
      hd.isMat hs
    refine ConvJob.sees_iff fe (olaJob fe exactLib M imp wis A B Bl extra 0) hw env o mode out Y _
      ?_ hf hY (fun h => rfl) (fun nth ht => ?_) s
    · rw [he, ho]
    · rw [hdrv]
      have hz := olaArgs_sized (L := exactLib) (M := M ⌊x⌋₊) (A := A) (B := B) (bl := ⌊x⌋₊) (mode := mode)
        (Y := Y) h2 h3 hsz hM
      have hacc : (olaArgs exactLib (M ⌊x⌋₊) A B ⌊x⌋₊ mode).accepted = true :=
        (C27_accepted _).2 ⟨hsh, hxr⟩
      have hbl : 1 ≤ ⌊x⌋₊ := Nat.one_le_floor_iff x |>.2 x1
      have hn1 := (C72_count _ hw env _ nth ht).1
      have hgood : (olaArgs exactLib (M ⌊x⌋₊) A B ⌊x⌋₊ mode).Good nth := by
        rcases hg with h | h | h
        · exact .inl h
        · exact .inr (.inl h)
        · exact .inr (.inr (h nth ht))
      refine ⟨rfl, rfl, OlaCall.faithful hz hacc hbl nth hn1 hgood, fun n hn => ?_⟩
      obtain ⟨m', e1, e2⟩ := OlaCall.ola_serial_modes _ Y hz hacc hbl rfl hm nth hn1 hgood n hn
      refine ⟨m', e1, fun i hi => (e2 i hi).trans ?_⟩
      rw [hold]
      congr 1
      by_cases hn0 : out = none
      · rw [if_pos hn0, hn0]; simp [olaJob, oldVal, Arith.lit]
      · rw [if_neg hn0]; rfl

/-! ### Concrete cases -/

-- "+=" with blocks of two samples and scratch memory full of sevens: sample 0 becomes 1 + 7 + 0
example (s : ConvSeen ℝ) : ∃ z, ((olaJob .matlab exactLib (fun n => exOlaScratch (n + 1)) (fun _ => false) [] wcA wcB2
      ⟨1, 1, fun _ => 5 / 2⟩ [.mat 4 2 fun _ => 1, .chr 1 2 "+=".toList] 0).Sees .matlab 1 none s ↔
      s = .done (some (matOf 4 2 z)) fun _ => none) ∧ z 0 0 = 8 := by
  have h := C87_ola_modes_violated .matlab (fun n => exOlaScratch (n + 1)) (fun _ => false) [] wcA wcB2
    ⟨1, 1, fun _ => 5 / 2⟩ (5 / 2) rfl rfl rfl (by norm_num) (by rw [floor_half5]; norm_num)
    (by rw [floor_half5]; simp [wcA]) [.mat 4 2 fun _ => 1, .chr 1 2 "+=".toList] .sum (by simp)
    (some (.mat 4 2 fun _ => 1))
    (.add 4 2 fun _ => 1) (.inr (.inr rfl)) (by simp [wcB2]) (by simp [wcB2])
    (by rw [floor_half5]; exact exOlaScratch_sized 3) (fun y hy => by simp at hy; subst hy; exact ⟨rfl, rfl⟩) 1 none
    (.inl (by simp [wcB2])) s
  rw [if_neg not_badEnv_none] at h
  refine ⟨_, h, ?_⟩
  rw [floor_half5]
  norm_num [olaAdded, blockConv, linConv, wcA, wcB2, filtLen, oldVal, exOlaScratch, Finset.sum_range_succ, convRows]

-- even with cleared scratch memory: blocks of one sample, inputs 1 1, filter 1: the second sample becomes 2
example : olaAdded 1 (fun _ => 1) (fun _ => 1) (fun _ => 0) 2 1 1 1 = 2 ∧
    linConv (fun _ => 1) (fun _ => 1) 2 1 1 = 1 := by
  constructor
  · norm_num [olaAdded, blockConv, linConv, Finset.sum_range_succ, -Finset.sum_boole, -Finset.sum_const]
  · norm_num [linConv, Finset.sum_range_succ, -Finset.sum_boole, -Finset.sum_const]

end Dream
