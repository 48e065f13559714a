import Verif.ConvP
import Verif.ProgBad

/-
Overlap-and-add convolution: extra_src/mex_fftconv_ola.cc (the Octave version
extra_src/oct_fftconv_ola.cc has the same worker).
-/

namespace Dream
open Arith

variable {F : Type} [Arith F]

/-- Arguments of fftconv_ola (extra_src/mex_fftconv_ola.cc 330-357) and the contents of the
worker's scratch memory (98-118, allocated without initialisation, include/fft.h 40-46): `S n k` and
`ab n k` when the block of column `n` starting at sample `k` is processed, `y0 n` the vector `y`
when column `n` starts. -/
structure OlaCall (F : Type) where
  aM : Nat
  aN : Nat
  A : Buf F
  bM : Nat
  bN : Nat
  B : Buf F
  /-- `block_len` -/
  bl : Nat
  mode : ConvMode
  L : FFTLib F
  S : Nat → Nat → Scratch F
  ab : Nat → Nat → Buf F
  y0 : Nat → Buf F

namespace OlaCall

/-- The checks on arguments 2 and 3, extra_src/mex_fftconv_ola.cc 339 and 355-357.  The test
`block_len < 0` is never true for an unsigned index type; for a signed one a negative block length
is rejected, which a natural number cannot express. -/
def accepted (C : OlaCall F) : Bool :=
  !(C.bM != 1 && C.bN != 1 && C.bN != C.aN) && !(C.bl > C.aM)

/-- `B_M` after "B is a vector", extra_src/mex_fftconv_ola.cc 343-346. -/
def bRows (C : OlaCall F) : Nat := if C.bM = 1 ∨ C.bN = 1 then C.bM * C.bN else C.bM

/-- `B_N` after "B is a vector". -/
def bCols (C : OlaCall F) : Nat := if C.bM = 1 ∨ C.bN = 1 then 1 else C.bN

/-- Rows of the output. -/
def len (C : OlaCall F) : Nat := C.aM + C.bRows - 1

/-- `fft_len`, extra_src/mex_fftconv_ola.cc 93. -/
def fftLen (C : OlaCall F) : Nat := C.bl + C.bRows - 1

/-- The read of sample `i` of the second convolution argument: `Bp[i]` with `Bp = &B[n*B_M]` for a
matrix (line 127 and 189), `B[i]` for a vector. -/
def rdB (C : OlaCall F) (n i : Nat) : Outcome F :=
  if 1 < C.bCols then C.B.read ((i + n * C.bRows : Nat) : Int) else C.B.read (i : Int)

/-- First argument of `fftconv` for the block that starts at sample `k` of column `n`: samples
`Ap[i]` for a full block (line 145, 216), `a_block[i]` after copying and zero-padding otherwise
(156-165, 225-234).  `ap` is the index in `A` that `Ap` points at. -/
def blockSrc (C : OlaCall F) (n k ap : Nat) : Outcome (Nat → Outcome F) :=
  if k + C.bl < C.aM then .ok fun i => C.A.read ((ap + i : Nat) : Int)
  else
    (padCopy (fun i => C.A.read ((k + n * C.aM + i : Nat) : Int)) (C.aM - k) C.bl (C.ab n k)).map
      fun b i => b.read (i : Int)

/-- `fftconv(fft, ..., y, ..., conv_mode)`: convolve one block into the local vector `y`
(extra_src/fftconv.cc 32-112 with output `y`). -/
def blockY (C : OlaCall F) (n k ap : Nat) (y : Buf F) : Outcome (Buf F) :=
  (C.blockSrc n k ap).bind fun src =>
  (fftconvLocal C.L src (C.rdB n) C.bl C.bRows (C.S n k)).bind fun c =>
  forO (fun (i : Nat) y => (c.read (i : Int)).bind fun v => (y.read (i : Int)).bind fun z =>
    y.write (i : Int) (storeVal C.mode z v)) C.fftLen 0 y

/-- "Add the overlap", extra_src/mex_fftconv_ola.cc 171-179 and 240-248. -/
def addOverlap (C : OlaCall F) (k : Nat) (y : Buf F) : Prog F Unit :=
  Prog.forN (fun l _ =>
    (Prog.lift (y.read (l : Int))).bind fun v =>
    .rd ((k + l : Nat) : Int) fun z => .wr ((k + l : Nat) : Int) (z +. v) (.ret ()))
    (if k + C.fftLen < C.len then C.fftLen else C.len - k) 0 ()

/-- `while (k < A_M)`, extra_src/mex_fftconv_ola.cc 135-182 and 206-251, at most `fuel` passes; if
the loop is still running then, the program spins. -/
def olaLoop (C : OlaCall F) (n : Nat) : (fuel k ap : Nat) → Buf F → Prog F Unit
  | 0, k, _, _ => if k < C.aM then .spin else .ret ()
  | fuel + 1, k, ap, y =>
    if k < C.aM then
      (Prog.lift (C.blockY n k ap y)).bind fun y =>
      (C.addOverlap k y).bind fun _ =>
      C.olaLoop n fuel (k + C.bl) (ap + if k + C.bl < C.aM then C.bl else C.aM - k) y
    else .ret ()

/-- How far the `while` loop advances `Ap` (`Ap += len`, lines 168 and 237). -/
def olaAdv (aM bl : Nat) : (fuel k : Nat) → Nat
  | 0, _ => 0
  | fuel + 1, k =>
    if k < aM then (if k + bl < aM then bl else aM - k) + olaAdv aM bl fuel (k + bl) else 0

/-- The index that `Ap` points at when a worker whose range starts at column `start` begins its
column number `i`: line 126/198 for the first; the loop advances it, and for a vector B line 259
`Ap += A_M` advances it once more. -/
def apAt (C : OlaCall F) (start : Nat) : Nat → Nat
  | 0 => start * C.aM
  | i + 1 => C.apAt start i + olaAdv C.aM C.bl C.aM 0 + if 1 < C.bCols then 0 else C.aM

/-- Work for column `n` in the worker whose range starts at `start`.  `A_M` passes are enough for
every positive block length (see `olaLoop_ok`); with `block_len = 0` the loop does not advance. -/
def prog (C : OlaCall F) (start n : Nat) : Prog F SIRError :=
  (C.olaLoop n C.aM 0 (C.apAt start (n - start)) (C.y0 n)).bind fun _ => .ret .none

/-- First column of the worker that owns column `n`. -/
def startOf (No nth n : Nat) : Nat :=
  match (List.range nth).find? (fun w => rangeStart No nth w ≤ n && n < rangeStop No nth w) with
  | some w => rangeStart No nth w
  | none => 0

/-- The threaded driver with `nth` threads, extra_src/mex_fftconv_ola.cc 548-590. -/
def drv (C : OlaCall F) (nth : Nat) : Drv F (Prog F SIRError) :=
  Drv.ofProg C.aN C.len (fun n => n * C.len) .none (fun n => C.prog (startOf C.aN nth n) n)

/-- Shapes of the buffers. -/
structure Sized (C : OlaCall F) (Y : Buf F) : Prop where
  a : C.A.size = C.aM * C.aN
  b : C.B.size = C.bM * C.bN
  bM : 1 ≤ C.bM
  bN : 1 ≤ C.bN
  y : Y.size = C.len * C.aN
  scratch : ∀ n k, (C.S n k).Sized C.fftLen
  ab : ∀ n k, (C.ab n k).size = C.fftLen
  y0 : ∀ n, (C.y0 n).size = C.fftLen

/-- The column of `B` used for column `n`. -/
def colB (C : OlaCall F) (n i : Nat) : F :=
  C.B.data (if C.bM = 1 ∨ C.bN = 1 then i else i + n * C.bM)

end OlaCall

/-! ### Lemmas -/

theorem startOf_eq (No nth n w : Nat) (h1 : rangeStart No nth w ≤ n) (h2 : n < rangeStop No nth w)
    (hw : w < nth) : OlaCall.startOf No nth n = rangeStart No nth w := by
  unfold OlaCall.startOf
  cases hf : (List.range nth).find? (fun w => rangeStart No nth w ≤ n && n < rangeStop No nth w) with
  | none =>
    rw [List.find?_eq_none] at hf
    have := hf w (List.mem_range.mpr hw)
    simp [h1, h2] at this
  | some v =>
    have hv := List.find?_some hf
    simp only [Bool.and_eq_true, decide_eq_true_eq] at hv
    rw [owner_unique No nth n v w hv ⟨h1, h2⟩]

theorem startOf_spec (No nth n : Nat) (h1 : 1 ≤ nth) (hn : n < No) :
    ∃ w, w < nth ∧ OlaCall.startOf No nth n = rangeStart No nth w ∧ rangeStart No nth w ≤ n ∧
      n < rangeStop No nth w := by
  obtain ⟨w, hw, g1, g2⟩ := owner_exists No nth n h1 hn
  exact ⟨w, hw, startOf_eq No nth n w g1 g2 hw, g1, g2⟩

theorem olaAdv_eq (aM bl : Nat) (hbl : 1 ≤ bl) : ∀ (fuel k : Nat), aM ≤ k + fuel * bl → k ≤ aM →
    OlaCall.olaAdv aM bl fuel k = aM - k
  | 0, k, h, hk => by simp [OlaCall.olaAdv]; omega
  | fuel + 1, k, h, hk => by
    simp only [OlaCall.olaAdv]
    by_cases h1 : k < aM
    · rw [if_pos h1]
      by_cases h2 : k + bl < aM
      · rw [if_pos h2, olaAdv_eq aM bl hbl fuel (k + bl) (by rw [Nat.add_mul] at h; omega) (by omega)]
        omega
      · rw [if_neg h2]
        have : OlaCall.olaAdv aM bl fuel (k + bl) = 0 := by
          cases fuel with
          | zero => rfl
          | succ f => simp only [OlaCall.olaAdv]; rw [if_neg (by omega)]
        omega
    · rw [if_neg h1]; omega

theorem OlaCall.apAt_eq (C : OlaCall F) (hbl : 1 ≤ C.bl) (start i : Nat) :
    C.apAt start i = start * C.aM + i * (C.aM + if 1 < C.bCols then 0 else C.aM) := by
  induction i with
  | zero => simp [OlaCall.apAt]
  | succ i ih =>
    have hadv : OlaCall.olaAdv C.aM C.bl C.aM 0 = C.aM := by
      rw [olaAdv_eq C.aM C.bl hbl C.aM 0 (by
        rw [Nat.zero_add]; exact Nat.le_mul_of_pos_right _ hbl) (Nat.zero_le _), Nat.sub_zero]
    simp only [OlaCall.apAt, ih, hadv, Nat.add_mul, Nat.one_mul]
    omega

theorem padCopy_ok_le (src : Nat → Outcome F) (x : Nat → F) (n N : Nat) (hn : n ≤ N) (a : Buf F)
    (ha : N ≤ a.size) (hx : ∀ i, i < n → src i = .ok (x i)) :
    ∃ a', padCopy src n N a = .ok a' ∧ a'.size = a.size ∧
      ∀ i, i < N → a'.data i = if i < n then x i else lit 0 := by
  obtain ⟨a1, e1, e2, e3⟩ := forO_map
    (fun (i : Nat) (a : Buf F) => (src i).bind fun v => a.write (i : Int) v) (fun i _ => x i) a.size n 0
    (by omega) a rfl
    (by
      intro i _ hi b hb
      rw [hx i (by omega)]
      rfl)
  obtain ⟨a2, f1, f2, f3⟩ := forO_map
    (fun (i : Nat) (a : Buf F) => a.write (i : Int) (lit 0)) (fun i _ => lit 0) a.size (N - n) n
    (by omega) a1 e2 (fun i _ _ b _ => rfl)
  unfold padCopy
  rw [e1]
  refine ⟨a2, f1, f2, fun i hi => ?_⟩
  rw [f3 i]
  by_cases h : i < n
  · rw [if_neg (by omega), e3 i, if_pos (by omega), if_pos h]
  · rw [if_pos (by omega), if_neg h]

/-- The samples that enter the block starting at `k`: from `ap` on for a full block, from the
column for the last one. -/
def OlaCall.blockVal (C : OlaCall F) (n k ap i : Nat) : F :=
  if k + C.bl < C.aM then C.A.data (ap + i)
  else if i < C.aM - k then C.A.data (k + n * C.aM + i) else lit 0

theorem OlaCall.rdB_ok {C : OlaCall F} {Y : Buf F} (h : C.Sized Y) (ha : C.accepted = true) {n : Nat}
    (hn : n < C.aN) (i : Nat) (hi : i < C.bRows) : C.rdB n i = .ok (C.colB n i) := by
  unfold rdB colB
  by_cases hv : C.bM = 1 ∨ C.bN = 1
  · have : ¬ 1 < C.bCols := by unfold bCols; rw [if_pos hv]; omega
    rw [if_neg this, if_pos hv]
    unfold bRows at hi
    rw [if_pos hv] at hi
    rw [Buf.read_nat _ _ (by rw [h.b]; exact hi)]
  · have hbN : C.bN = C.aN := by
      have h2 : ¬ C.bM = 1 ∧ ¬ C.bN = 1 := ⟨fun e => hv (.inl e), fun e => hv (.inr e)⟩
      refine Decidable.byContradiction fun h3 => ?_
      simp [accepted, h2.1, h2.2, h3] at ha
    have hp := h.bN
    have : 1 < C.bCols := by unfold bCols; rw [if_neg hv]; omega
    rw [if_pos this, if_neg hv]
    unfold bRows at hi ⊢
    rw [if_neg hv] at hi ⊢
    have h1 : (n + 1) * C.bM ≤ C.aN * C.bM := Nat.mul_le_mul_right _ hn
    rw [Nat.add_mul, Nat.one_mul, Nat.mul_comm C.aN] at h1
    rw [Buf.read_nat _ _ (by rw [h.b, hbN]; omega)]

theorem OlaCall.bRows_pos {C : OlaCall F} {Y : Buf F} (h : C.Sized Y) : 1 ≤ C.bRows := by
  unfold bRows
  split
  · exact Nat.mul_pos h.bM h.bN
  · exact h.bM

theorem OlaCall.blockSrc_ok {C : OlaCall F} {Y : Buf F} (h : C.Sized Y) {n : Nat} (hn : n < C.aN)
    {k ap : Nat} (hk : k < C.aM)
    (hap : k + C.bl < C.aM → ap + C.bl ≤ C.A.size) :
    ∃ src, C.blockSrc n k ap = .ok src ∧ ∀ i, i < C.bl → src i = .ok (C.blockVal n k ap i) := by
  unfold blockSrc
  by_cases hf : k + C.bl < C.aM
  · rw [if_pos hf]
    refine ⟨_, rfl, fun i hi => ?_⟩
    have := hap hf
    rw [Buf.read_nat _ _ (by omega), blockVal, if_pos hf]
  · rw [if_neg hf]
    have h1 : (n + 1) * C.aM ≤ C.aN * C.aM := Nat.mul_le_mul_right _ hn
    rw [Nat.add_mul, Nat.one_mul, Nat.mul_comm C.aN, ← h.a] at h1
    have hb := bRows_pos h
    have hfl : C.fftLen = C.bl + C.bRows - 1 := rfl
    obtain ⟨a', e1, e2, e3⟩ := padCopy_ok_le
      (fun i => C.A.read ((k + n * C.aM + i : Nat) : Int)) (fun i => C.A.data (k + n * C.aM + i))
      (C.aM - k) C.bl (by omega) (C.ab n k) (by rw [h.ab]; omega)
      (fun i hi => Buf.read_nat _ _ (by omega))
    rw [e1]
    refine ⟨_, rfl, fun i hi => ?_⟩
    show a'.read (i : Int) = _
    rw [Buf.read_nat _ _ (by rw [e2, h.ab]; omega), e3 i hi, blockVal, if_neg hf]

theorem OlaCall.blockY_ok {C : OlaCall F} {Y : Buf F} (h : C.Sized Y) (ha : C.accepted = true)
    (hbl : 1 ≤ C.bl) {n : Nat} (hn : n < C.aN) {k ap : Nat} (hk : k < C.aM)
    (hap : k + C.bl < C.aM → ap + C.bl ≤ C.A.size) (y : Buf F) (hy : y.size = C.fftLen) :
    ∃ y', C.blockY n k ap y = .ok y' ∧ y'.size = C.fftLen ∧ ∀ i, i < C.fftLen →
      y'.data i = storeVal C.mode (y.data i)
        (fftconvVal C.L (C.blockVal n k ap) (C.colB n) C.bl C.bRows i) := by
  obtain ⟨src, e1, e2⟩ := blockSrc_ok h hn hk hap
  obtain ⟨c, f1, f2, f3⟩ := fftconvLocal_ok C.L (C.blockVal n k ap) (C.colB n) src (C.rdB n) C.bl
    C.bRows hbl (bRows_pos h) (C.S n k) (h.scratch n k) e2 (rdB_ok h ha hn)
  have hfl : C.fftLen = C.bl + C.bRows - 1 := rfl
  obtain ⟨y', g1, g2, g3⟩ := forO_map
    (fun (i : Nat) y => (c.read (i : Int)).bind fun v => (y.read (i : Int)).bind fun z =>
      y.write (i : Int) (storeVal C.mode z v))
    (fun i z => storeVal C.mode z (c.data i)) C.fftLen C.fftLen 0 (by omega) y hy
    (by
      intro i _ hi b hb
      rw [Buf.read_nat _ _ (by omega)]
      simp only [Outcome.bind]
      rw [Buf.read_nat _ _ (by omega)])
  unfold blockY
  rw [e1]
  simp only [Outcome.ok_bind]
  rw [f1]
  simp only [Outcome.ok_bind]
  refine ⟨y', g1, g2, fun i hi => ?_⟩
  rw [g3 i, if_pos (by omega), f3 i hi]

theorem OlaCall.addOverlap_run (C : OlaCall F) (k : Nat) (y : Buf F) (hk : k < C.aM)
    (hb : 1 ≤ C.bRows) (hy : y.size = C.fftLen) (c : Nat → F) :
    (C.addOverlap k y).runCol C.len c = .ok ((fun q => if k ≤ q ∧ q < k + C.fftLen ∧ q < C.len then
      c q +. y.data (q - k) else c q), ()) := by
  have hlen : C.len = C.aM + C.bRows - 1 := rfl
  have hcnt : ∀ q, k ≤ q → ((q < k + (if k + C.fftLen < C.len then C.fftLen else C.len - k)) ↔
      (q < k + C.fftLen ∧ q < C.len)) := by
    intro q hq
    split <;> omega
  obtain ⟨c', s', h1, h2⟩ := Prog.forN_runCol C.len
    (fun l (_ : Unit) => (Prog.lift (y.read (l : Int))).bind fun v =>
      .rd ((k + l : Nat) : Int) fun z => .wr ((k + l : Nat) : Int) (z +. v) (.ret ()))
    (fun l c' _ => c' = fun q => if k ≤ q ∧ q < k + l then c q +. y.data (q - k) else c q)
    (if k + C.fftLen < C.len then C.fftLen else C.len - k) 0 () c
    (by
      intro l _ hl c1 _ hc1
      have hl' : k + l < k + C.fftLen ∧ k + l < C.len := (hcnt (k + l) (by omega)).mp (by omega)
      rw [Buf.read_nat _ _ (by omega)]
      refine ⟨fun q => if q = k + l then c1 (k + l) +. y.data l else c1 q, (), ?_, ?_⟩
      · simp only [Prog.lift, Prog.bind, Prog.runCol]
        rw [if_pos (by omega), if_pos (by omega)]
        simp only [Int.toNat_natCast]
      · subst hc1
        funext q
        simp only
        by_cases hq : q = k + l
        · subst hq
          rw [if_pos rfl, if_neg (by omega), if_pos (by omega), Nat.add_sub_cancel_left]
        · rw [if_neg hq]
          by_cases h3 : k ≤ q ∧ q < k + l
          · rw [if_pos h3, if_pos (by omega)]
          · rw [if_neg h3, if_neg (by omega)])
    (by funext q; rw [if_neg (by omega)])
  unfold addOverlap
  rw [h1, h2, Nat.zero_add]
  congr 1
  refine Prod.ext ?_ rfl
  funext q
  simp only
  by_cases hq : k ≤ q
  · have := hcnt q hq
    by_cases h3 : q < k + C.fftLen ∧ q < C.len
    · rw [if_pos ⟨hq, this.mpr h3⟩, if_pos ⟨hq, h3⟩]
    · rw [if_neg (fun g => h3 (this.mp g.2)), if_neg (fun g => h3 g.2)]
  · rw [if_neg (by omega), if_neg (by omega)]

theorem OlaCall.addOverlap_safe (C : OlaCall F) (k : Nat) (y : Buf F) (hk : k < C.aM)
    (hb : 1 ≤ C.bRows) (hy : y.size = C.fftLen) :
    (C.addOverlap k y).Safe C.len (fun _ => True) := by
  have hlen : C.len = C.aM + C.bRows - 1 := rfl
  refine Prog.Safe.forN (P := fun _ _ => True) _ 0 () ?_ trivial
  intro l _ hl _ _
  have hl' : l < C.fftLen ∧ k + l < C.len := by
    revert hl
    split <;> omega
  rw [Buf.read_nat _ _ (by omega)]
  exact ⟨by omega, fun z => ⟨by omega, trivial⟩⟩

/-- The vector `y` after the block at `k`. -/
def OlaCall.yVal (C : OlaCall F) (n k ap : Nat) (y : Nat → F) (i : Nat) : F :=
  storeVal C.mode (y i) (fftconvVal C.L (C.blockVal n k ap) (C.colB n) C.bl C.bRows i)

/-- The column after the remaining `fuel` blocks. -/
def OlaCall.olaCol (C : OlaCall F) (n : Nat) : (fuel k ap : Nat) → (y c : Nat → F) → Nat → F
  | 0, _, _, _, c => c
  | fuel + 1, k, ap, y, c =>
    if k < C.aM then
      C.olaCol n fuel (k + C.bl) (ap + if k + C.bl < C.aM then C.bl else C.aM - k)
        (C.yVal n k ap y)
        (fun q => if k ≤ q ∧ q < k + C.fftLen ∧ q < C.len then c q +. C.yVal n k ap y (q - k)
          else c q)
    else c

theorem OlaCall.olaCol_congr (C : OlaCall F) (n : Nat) : ∀ (fuel k ap : Nat) (y y' c c' : Nat → F),
    (∀ i, i < C.fftLen → y i = y' i) → (∀ i, i < C.len → c i = c' i) →
    ∀ i, i < C.len → C.olaCol n fuel k ap y c i = C.olaCol n fuel k ap y' c' i
  | 0, _, _, _, _, _, _, _, hc, i, hi => hc i hi
  | fuel + 1, k, ap, y, y', c, c', hy, hc, i, hi => by
    simp only [olaCol]
    have hyv : ∀ j, j < C.fftLen → C.yVal n k ap y j = C.yVal n k ap y' j := by
      intro j hj
      simp only [yVal, hy j hj]
    by_cases h : k < C.aM
    · rw [if_pos h, if_pos h]
      refine olaCol_congr C n fuel _ _ _ _ _ _ hyv ?_ i hi
      intro q hq
      by_cases h3 : k ≤ q ∧ q < k + C.fftLen ∧ q < C.len
      · rw [if_pos h3, if_pos h3, hyv (q - k) (by omega), hc q hq]
      · rw [if_neg h3, if_neg h3, hc q hq]
    · rw [if_neg h, if_neg h]
      exact hc i hi

/-- The loop is safe and ends after at most `A_M` passes for every positive block length, provided
the full blocks are read inside `A`; the column is `olaCol`. -/
theorem OlaCall.olaLoop_ok {C : OlaCall F} {Y : Buf F} (h : C.Sized Y) (ha : C.accepted = true)
    (hbl : 1 ≤ C.bl) {n : Nat} (hn : n < C.aN) : ∀ (fuel k ap : Nat) (y : Buf F),
    C.aM ≤ k + fuel * C.bl → y.size = C.fftLen →
    (k < C.aM → ∀ j, k + j + C.bl < C.aM → ap + j + C.bl ≤ C.A.size) →
    (C.olaLoop n fuel k ap y).Safe C.len (fun _ => True) ∧
    ∀ c, ∃ c', (C.olaLoop n fuel k ap y).runCol C.len c = .ok (c', ()) ∧
      ∀ i, i < C.len → c' i = C.olaCol n fuel k ap y.data c i
  | 0, k, ap, y, hf, hy, hap => by
    simp only [olaLoop]
    rw [if_neg (by omega)]
    exact ⟨trivial, fun c => ⟨c, rfl, fun i hi => rfl⟩⟩
  | fuel + 1, k, ap, y, hf, hy, hap => by
    simp only [olaLoop, olaCol]
    by_cases hk : k < C.aM
    · simp only [if_pos hk]
      obtain ⟨y', e1, e2, e3⟩ := blockY_ok h ha hbl hn hk (fun hf => by
        have := hap hk 0 (by omega); omega) y hy (ap := ap)
      rw [e1]
      have hlift : ∀ (f : Buf F → Prog F Unit),
          (Prog.lift (Outcome.ok y') : Prog F (Buf F)).bind f = f y' := fun _ => rfl
      rw [hlift]
      obtain ⟨g1, g2⟩ := olaLoop_ok h ha hbl hn fuel (k + C.bl)
        (ap + if k + C.bl < C.aM then C.bl else C.aM - k) y'
        (by rw [Nat.add_mul] at hf; omega) e2
        (by
          intro hk2 j hj
          rw [if_pos hk2]
          have := hap hk (C.bl + j) (by omega)
          omega)
      refine ⟨Prog.Safe.bind (addOverlap_safe C k y' hk (bRows_pos h) e2) (fun _ _ => g1),
        fun c => ?_⟩
      rw [Prog.runCol_bind, addOverlap_run C k y' hk (bRows_pos h) e2]
      simp only [Outcome.bind]
      obtain ⟨c', k1, k2⟩ := g2 (fun q => if k ≤ q ∧ q < k + C.fftLen ∧ q < C.len then
        c q +. y'.data (q - k) else c q)
      refine ⟨c', k1, fun i hi => ?_⟩
      rw [k2 i hi]
      refine olaCol_congr C n fuel _ _ _ _ _ _ e3 ?_ i hi
      intro q hq
      by_cases h3 : k ≤ q ∧ q < k + C.fftLen ∧ q < C.len
      · rw [if_pos h3, if_pos h3, e3 (q - k) (by omega)]
        rfl
      · rw [if_neg h3, if_neg h3]
    · simp only [if_neg hk]
      exact ⟨trivial, fun c => ⟨c, rfl, fun i hi => rfl⟩⟩

end Dream
