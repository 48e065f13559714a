import Verif.MachOla
import Verif.ClaimsMachCopy
import Verif.ClaimsOla

/-
C93: machine integers in fftconv_ola.
-/

namespace Dream
open Arith

variable {F : Type} [Arith F]

/-- `B` and the output matrix (which is not smaller than `A`) fit into an address space of `2^bits` bytes. -/
structure OlaCall.Fits (C : OlaCall F) (bits : Nat) : Prop where
  b : 8 * (C.bM * C.bN) < 2 ^ bits
  y : 8 * (C.len * C.aN) < 2 ^ bits

theorem machEntries_ok {n : Nat} (h : 8 * n < 2 ^ 64) : machEntries n = n := by
  unfold machEntries
  rw [Nat.mod_eq_of_lt (by omega)]
  omega

theorem fftconvLocalI_small (L : FFTLib F) (x y : Nat → Outcome F) (nx ny : Nat) (S : Scratch F)
    (h1 : 1 ≤ nx + ny - 1) (h : nx + ny - 1 < 2 ^ 31) : fftconvLocalI L x y nx ny S = fftconvLocal L x y nx ny S := by
  unfold fftconvLocalI fftconvLocal
  simp only [fftI_small L h1 h, ifftI_small L h1 h]

namespace OlaCall

section
variable {C : OlaCall F}

/-- The sizes that the proofs below need, for a call with at least one column. -/
structure Small (C : OlaCall F) : Prop where
  aM : 1 ≤ C.aM
  bl : 1 ≤ C.bl
  le : C.bl ≤ C.aM
  rows : 1 ≤ C.bRows
  rows' : 8 * C.bRows < 2 ^ 63
  y : 8 * (C.len * C.aN) < 2 ^ 63
  cols : 1 < C.bCols → C.bRows = C.bM ∧ C.bN = C.aN ∧ 8 * (C.bM * C.aN) < 2 ^ 63

omit [Arith F] in
theorem small (ha : C.accepted = true) (h : C.Fits 63) (hbl : 1 ≤ C.bl) (hbM : 1 ≤ C.bM) (hbN : 1 ≤ C.bN) :
    C.Small := by
  have h1 := h.b
  have h2 := h.y
  have hbl' : C.bl ≤ C.aM := by
    simp only [accepted, Bool.and_eq_true, Bool.not_eq_true', decide_eq_false_iff_not, gt_iff_lt] at ha
    omega
  have hle : C.bM ≤ C.bM * C.bN := Nat.le_mul_of_pos_right _ hbN
  have hpos : 1 ≤ C.bM * C.bN := Nat.mul_pos hbM hbN
  refine ⟨by omega, hbl, hbl', ?_, ?_, h2, ?_⟩
  · unfold bRows; split <;> omega
  · unfold bRows; split <;> omega
  · intro hc
    unfold bCols at hc
    split at hc
    · omega
    · rename_i hn
      have hN : C.bN = C.aN := by
        simp only [accepted, Bool.and_eq_true, Bool.not_eq_true', decide_eq_false_iff_not] at ha
        have := ha.1
        simp only [not_or] at hn
        simpa [hn.1, hn.2] using this
      refine ⟨by unfold bRows; rw [if_neg hn], hN, ?_⟩
      rw [← hN]
      exact h1

omit [Arith F] in
theorem machRows_ok (h : C.Fits 63) (ty : IdxTy) : C.machRows ty = .ok C.bRows := by
  have := h.b
  unfold machRows bRows
  split
  · exact ty.norm_ok (by omega)
  · rfl

omit [Arith F] in
theorem len_le (C : OlaCall F) {n : Nat} (hn : n < C.aN) : C.len ≤ C.len * C.aN :=
  Nat.le_mul_of_pos_right _ (by omega)

omit [Arith F] in
theorem machFft_ok (h : C.Small) {n : Nat} (hn : n < C.aN) (ty : IdxTy) : C.machFft ty C.bRows = .ok C.fftLen := by
  have h1 := h.y
  have h2 := h.rows
  have h4 := C.len_le hn
  have h5 : C.len = C.aM + C.bRows - 1 := rfl
  have h6 := h.le
  unfold machFft
  rw [ty.norm_ok (by omega), Outcome.ok_bind, ty.pred_ok (by omega) (by omega)]
  rfl

omit [Arith F] in
theorem machLen_ok (h : C.Small) {n : Nat} (hn : n < C.aN) (ty : IdxTy) : C.machLen ty C.bRows = .ok C.len := by
  have h1 := h.y
  have h2 := h.rows
  have h3 : C.len = C.aM + C.bRows - 1 := rfl
  have h4 := C.len_le hn
  have h5 := h.aM
  unfold machLen
  rw [ty.norm_ok (by omega), Outcome.ok_bind, ty.pred_ok (by omega) (by omega)]
  rfl

omit [Arith F] in
/-- A sample of a column lies below the size of the output. -/
theorem col_le (h : C.Small) {n : Nat} (hn : n < C.aN) :
    n * C.len + C.len ≤ C.len * C.aN ∧ n * C.aM + C.aM ≤ C.len * C.aN := by
  have h2 := h.rows
  have h3 : C.len = C.aM + C.bRows - 1 := rfl
  have h1 : (n + 1) * C.len ≤ C.aN * C.len := Nat.mul_le_mul_right _ hn
  have h4 : (n + 1) * C.aM ≤ (n + 1) * C.len := Nat.mul_le_mul_left _ (by omega)
  rw [Nat.add_mul, Nat.one_mul] at h1 h4
  rw [Nat.mul_comm C.len C.aN]
  rw [Nat.add_mul, Nat.one_mul] at h4
  exact ⟨h1, by omega⟩

omit [Arith F] in
theorem machRdB_ok (h : C.Small) {start n : Nat} (hs : start ≤ n) (hn : n < C.aN) (ty : IdxTy) :
    C.machRdB ty C.bRows start n = C.rdB n := by
  funext i
  unfold machRdB rdB
  by_cases hc : 1 < C.bCols
  · rw [if_pos hc, if_pos hc]
    obtain ⟨g1, g2, g3⟩ := h.cols hc
    have h1 : start * C.bM ≤ C.aN * C.bM := Nat.mul_le_mul_right _ (by omega)
    rw [Nat.mul_comm C.aN] at h1
    rw [g1, ty.norm_ok (by omega), Outcome.ok_bind]
    have h2 : start * C.bM + (n - start) * C.bM = n * C.bM := by
      rw [← Nat.add_mul]
      congr 1
      omega
    rw [h2]
  · rw [if_neg hc, if_neg hc]

theorem machBlockSrc_ok (h : C.Small) {n k : Nat} (hn : n < C.aN) (hk : k < C.aM) (ap : Nat) (ty : IdxTy) :
    C.machBlockSrc ty n k ap = C.blockSrc n k ap := by
  obtain ⟨-, h1⟩ := col_le h hn
  have h2 := h.y
  have h3 := h.le
  unfold machBlockSrc blockSrc padCopy
  rw [ty.norm_ok (by omega), Outcome.ok_bind]
  split
  · rfl
  · rw [ty.norm_ok (by omega), Outcome.ok_bind, ty.norm_ok (by omega), Outcome.ok_bind,
      machEntries_ok (by omega), machEntries_ok (by omega)]
    beta_reduce
    generalize forO _ (C.aM - k) 0 (C.ab n k) = o
    cases o with
    | ok a =>
      simp only [Outcome.bind, Outcome.map]
    | _ => rfl

theorem machBlockY_ok (h : C.Small) {start n k : Nat} (hs : start ≤ n) (hn : n < C.aN) (hk : k < C.aM) (hf : C.fftLen < 2 ^ 31)
    (ap : Nat) (y : Buf F) (ty : IdxTy) : C.machBlockY ty C.bRows C.fftLen start n k ap y = C.blockY n k ap y := by
  have h2 := h.rows
  have h4 := h.bl
  have h3 : C.fftLen = C.bl + C.bRows - 1 := rfl
  unfold machBlockY blockY
  rw [machBlockSrc_ok h hn hk, machRdB_ok h hs hn]
  simp only [fftconvLocalI_small C.L _ _ _ _ _ (by omega : 1 ≤ C.bl + C.bRows - 1) (by omega)]

theorem machOverlap_ok (h : C.Small) {n k : Nat} (hn : n < C.aN) (hk : k < C.aM) (y : Buf F) (ty : IdxTy) :
    C.machOverlap ty C.fftLen C.len n k y = C.addOverlap k y := by
  obtain ⟨h1, h1'⟩ := col_le h hn
  have h2 := h.y
  have h3 : C.fftLen = C.bl + C.bRows - 1 := rfl
  have h5 := h.rows
  have h7 := h.le
  have h4 : C.len = C.aM + C.bRows - 1 := rfl
  have h6 := C.len_le hn
  unfold machOverlap addOverlap
  rw [ty.norm_ok (by omega)]
  simp only [Prog.lift, Prog.bind]
  refine Prog.forN_congr_lt _ _ _ _ _ fun l _ hl _ => ?_
  have hl' : k + l < C.len := by
    split at hl <;> omega
  rw [ty.norm_ok (by omega), ty.norm_ok (by omega)]
  simp only [Prog.bind]
  rw [ty.norm_ok (by omega)]
  simp only [Prog.bind]
  rw [show ((k + l + n * C.len : Nat) : Int) - ((n * C.len : Nat) : Int) = ((k + l : Nat) : Int) by omega]

theorem machLoop_ok (h : C.Small) {start n : Nat} (hs : start ≤ n) (hn : n < C.aN) (hf : C.fftLen < 2 ^ 31)
    (ty : IdxTy) : ∀ (fuel k ap : Nat) (y : Buf F),
      C.machLoop ty C.bRows C.fftLen C.len start n fuel k ap y = C.olaLoop n fuel k ap y := by
  intro fuel
  induction fuel with
  | zero => intro k ap y; rfl
  | succ fuel ih =>
    intro k ap y
    simp only [machLoop, olaLoop]
    by_cases hk : k < C.aM
    · rw [if_pos hk, if_pos hk, machBlockY_ok h hs hn hk hf]
      congr 1
      funext y'
      rw [machOverlap_ok h hn hk]
      congr 1
      funext _
      obtain ⟨-, h1⟩ := col_le h hn
      have h2 := h.y
      have h3 := h.le
      rw [ty.norm_ok (by omega)]
      simp only [Prog.lift, Prog.bind]
      exact ih _ _ _
    · rw [if_neg hk, if_neg hk]

omit [Arith F] in
theorem machApAt_ok (h : C.Small) {start : Nat} (hs : start < C.aN) (ty : IdxTy) (i : Nat) :
    C.machApAt ty start i = .ok (C.apAt start i) := by
  induction i with
  | zero =>
    obtain ⟨-, h1⟩ := col_le h hs
    have h2 := h.y
    exact ty.norm_ok (by omega)
  | succ i ih =>
    simp only [machApAt, apAt, ih]
    rfl

theorem machProg_ok (h : C.Small) (h0 : C.Fits 63) {start n : Nat} (hs : start ≤ n) (hn : n < C.aN)
    (hf : C.fftLen < 2 ^ 31) (ty : IdxTy) :
    C.machProg ty start n = C.prog start n := by
  unfold machProg prog
  rw [machRows_ok h0, machApAt_ok h (by omega : start < C.aN)]
  simp only [Prog.lift, Prog.bind]
  rw [machFft_ok h hn, machLen_ok h hn]
  simp only [Prog.bind]
  rw [machLoop_ok h hs hn hf]

end

end OlaCall

/-- Machine integers, with a bound on the number of workers times the number of columns. -/
theorem OlaCall.mach_any (C : OlaCall F) (ty : IdxTy) (ha : C.accepted = true) (h : C.Fits 63) (hbl : 1 ≤ C.bl)
    (hbM : 1 ≤ C.bM) (hbN : 1 ≤ C.bN) (hf : C.fftLen < 2 ^ 31) (Y : Buf F) (nth : Nat) (h1 : 1 ≤ nth)
    (h2 : nth < 2 ^ 63) (h3 : nth * C.aN < 2 ^ 63) (as : List Act) :
    ((machInit ty C.aN nth Y).bind fun s => exec (C.machTask ty nth) as s) =
      exec (C.drv nth).task as (initSys C.aN nth Y) := by
  rw [C84_ranges ty C.aN nth Y h3 h2]
  refine exec_same (No := C.aN) ?_ ?_ as _ (sane_init _ _ _)
  · intro n hn
    obtain ⟨w, _, e, g1, _⟩ := startOf_spec C.aN nth n h1 hn
    show Outcome.ok (C.machProg ty (OlaCall.startOf C.aN nth n) n) = Outcome.ok (C.prog (OlaCall.startOf C.aN nth n) n)
    rw [OlaCall.machProg_ok (OlaCall.small ha h hbl hbM hbN) h (by omega) hn hf ty]
  · intro n l b hn
    rfl

omit [Arith F] in
theorem OlaCall.cols_le (C : OlaCall F) (ha : C.accepted = true) (hbl : 1 ≤ C.bl) (hbM : 1 ≤ C.bM) (hbN : 1 ≤ C.bN) :
    C.aN ≤ C.len * C.aN := by
  have hbl' : C.bl ≤ C.aM := by
    simp only [OlaCall.accepted, Bool.and_eq_true, Bool.not_eq_true', decide_eq_false_iff_not, gt_iff_lt] at ha
    omega
  have hpos : 1 ≤ C.bM * C.bN := Nat.mul_pos hbM hbN
  have hr : 1 ≤ C.bRows := by unfold OlaCall.bRows; split <;> omega
  exact Nat.le_mul_of_pos_left _ (by unfold OlaCall.len; omega)

/-- C93: fftconv_ola: if `B` and the result fit into memory, the block length is positive, no transform is longer than
2^31 - 1 and there are at most 8 workers, no index computation overflows, the transforms have the length that is asked
for and the numbers of bytes do not wrap around: every execution with machine integers is the execution with exact
ones (wrong columns and out-of-range reads of C28 included). -/
theorem C93_ola (C : OlaCall F) (ty : IdxTy) (ha : C.accepted = true) (h : C.Fits 63) (hbl : 1 ≤ C.bl)
    (hbM : 1 ≤ C.bM) (hbN : 1 ≤ C.bN) (hf : C.fftLen < 2 ^ 31) (Y : Buf F) (nth : Nat) (h1 : 1 ≤ nth) (hn : nth ≤ 8)
    (as : List Act) :
    ((machInit ty C.aN nth Y).bind fun s => exec (C.machTask ty nth) as s) =
      exec (C.drv nth).task as (initSys C.aN nth Y) := by
  have g1 := C.cols_le ha hbl hbM hbN
  have g2 := h.y
  have g3 : nth * C.aN ≤ 8 * C.aN := Nat.mul_le_mul_right _ hn
  exact C.mach_any ty ha h hbl hbM hbN hf Y nth h1 (by omega) (by omega) as

/-- C93: in the 2^48-byte address space of current processors 2^18 workers are safe. -/
theorem C93_ola_48bit (C : OlaCall F) (ty : IdxTy) (ha : C.accepted = true) (h : C.Fits 48) (hbl : 1 ≤ C.bl)
    (hbM : 1 ≤ C.bM) (hbN : 1 ≤ C.bN) (hf : C.fftLen < 2 ^ 31) (Y : Buf F) (nth : Nat) (h1 : 1 ≤ nth)
    (hn : nth ≤ 2 ^ 18) (as : List Act) :
    ((machInit ty C.aN nth Y).bind fun s => exec (C.machTask ty nth) as s) =
      exec (C.drv nth).task as (initSys C.aN nth Y) := by
  have g1 := C.cols_le ha hbl hbM hbN
  have g2 := h.y
  have g4 := h.b
  have g3 : nth * C.aN ≤ 2 ^ 18 * C.aN := Nat.mul_le_mul_right _ hn
  exact C.mach_any ty ha ⟨by omega, by omega⟩ hbl hbM hbN hf Y nth h1 (by omega) (by omega) as

/-- C93 (violation): fftconv_ola with transforms of a length (`block length + rows of B - 1`) whose low 32 bits, read as
`int`, are not positive: a worker that has a column executes a plan that does not exist. -/
theorem C93_ola_no_plan (C : OlaCall F) (ty : IdxTy) (Y : Buf F) (h : C.Sized Y) (ha : C.accepted = true)
    (hf : C.Fits 63) (hbl : 1 ≤ C.bl) (hlen : C.fftLen % 2 ^ 32 = 0 ∨ 2 ^ 31 ≤ C.fftLen % 2 ^ 32)
    (nth : Nat) (h1 : 1 ≤ nth) (hn : nth ≤ 8) (w : Nat) (hw : w < nth)
    (hne : rangeStart C.aN nth w < rangeStop C.aN nth w) (as : List Act) :
    ((machInit ty C.aN nth Y).bind fun s => exec (C.machTask ty nth) (.step w :: .step w :: as) s) = .ub .null := by
  have hp : planLen C.fftLen = none := by
    unfold planLen
    rw [if_neg (by omega)]
  have hs := OlaCall.small ha hf hbl h.bM h.bN
  have g1 := C.cols_le ha hbl h.bM h.bN
  have g2 := hf.y
  have g3 : nth * C.aN ≤ 8 * C.aN := Nat.mul_le_mul_right _ hn
  have hlt : rangeStart C.aN nth w < C.aN := by
    have := rangeStart_le C.aN nth (w + 1) (by omega) (by omega)
    rw [← rangeStop_eq] at this
    omega
  generalize hst : rangeStart C.aN nth w = n at hlt hne
  have hstart : OlaCall.startOf C.aN nth n = n := by
    rw [startOf_eq C.aN nth n w (by omega) hne hw, hst]
  have hprog : C.machProg ty (OlaCall.startOf C.aN nth n) n = .bad .null := by
    rw [hstart]
    have haM := hs.aM
    have hap : C.apAt n 0 + C.bl ≤ C.A.size := by
      have h2 : (n + 1) * C.aM ≤ C.aN * C.aM := Nat.mul_le_mul_right _ hlt
      have h3 := hs.le
      rw [Nat.add_mul, Nat.one_mul, Nat.mul_comm C.aN, ← h.a] at h2
      simp only [OlaCall.apAt]
      omega
    obtain ⟨src, e1, e2⟩ := OlaCall.blockSrc_ok h hlt (k := 0) (ap := C.apAt n 0) (by omega) (fun _ => hap)
    obtain ⟨a, b1, b2, b3⟩ := padCopy_ok src _ C.bl C.fftLen (by have := hs.rows; unfold OlaCall.fftLen; omega)
      (C.S n 0).a (h.scratch n 0).a e2
    obtain ⟨b, c1, c2, c3⟩ := padCopy_ok (C.rdB n) (C.colB n) C.bRows C.fftLen (by unfold OlaCall.fftLen; omega)
      (C.S n 0).b (h.scratch n 0).b (OlaCall.rdB_ok h ha hlt)
    unfold OlaCall.machProg
    rw [OlaCall.machRows_ok hf, Nat.sub_self, OlaCall.machApAt_ok hs hlt]
    simp only [Prog.lift, Prog.bind]
    rw [OlaCall.machFft_ok hs hlt, OlaCall.machLen_ok hs hlt]
    simp only [Prog.bind]
    obtain ⟨m, hm⟩ : ∃ m, C.aM = m + 1 := ⟨C.aM - 1, by omega⟩
    have hblk : C.machBlockY ty C.bRows C.fftLen n n 0 (C.apAt n 0) (C.y0 n) = .ub .null := by
      unfold OlaCall.machBlockY
      rw [OlaCall.machBlockSrc_ok hs hlt (by omega), e1, OlaCall.machRdB_ok hs (Nat.le_refl n) hlt]
      simp only [Outcome.ok_bind]
      unfold fftconvLocalI
      rw [show C.bl + C.bRows - 1 = C.fftLen from rfl]
      simp only [b1, c1, FFTLib.fftI, hp, Outcome.bind]
    rw [show C.machLoop ty C.bRows C.fftLen C.len n n C.aM 0 (C.apAt n 0) (C.y0 n) = .bad .null by
      rw [hm]
      simp only [OlaCall.machLoop]
      rw [if_pos (by omega), hblk]
      rfl]
    rfl
  rw [C84_ranges ty C.aN nth Y (by omega) (by omega)]
  rw [Outcome.ok_bind, exec_same (u := (Drv.ofProg C.aN C.len (fun n => n * C.len) .none
    (fun n => C.machProg ty (OlaCall.startOf C.aN nth n) n)).task) (No := C.aN) ?_ ?_ _ _ (sane_init _ _ _)]
  · refine Drv.ofProg_hits_bad (No := C.aN) Y nth w hw (by rw [hst]; exact hne) .null ?_ as
    rw [hst]
    exact hprog
  · intro n _; rfl
  · intro n l b _; rfl

section Examples

-- hypotheses of C93_ola and C93_ola_48bit: a matrix B and a vector B, three columns, two workers
example (ty : IdxTy) (as : List Act) (bN : ℕ) (hb : bN = 1 ∨ bN = 3) :
    ((machInit ty 3 2 (⟨18, fun _ => 1⟩ : Buf ℝ)).bind fun s => exec ((exOla 2 bN 2 3 .equ).machTask ty 2) as s) =
      exec ((exOla 2 bN 2 3 .equ).drv 2).task as (initSys 3 2 ⟨18, fun _ => 1⟩) := by
  rcases hb with rfl | rfl
  · exact C93_ola (exOla 2 1 2 3 .equ) ty (by simp [OlaCall.accepted, exOla])
      ⟨by simp [exOla], by simp [exOla, OlaCall.len, OlaCall.bRows]⟩ (by simp [exOla]) (by simp [exOla])
      (by simp [exOla]) (by simp [exOla, OlaCall.fftLen, OlaCall.bRows]) _ 2 (by omega) (by omega) as
  · exact C93_ola_48bit (exOla 2 3 2 3 .equ) ty (by simp [OlaCall.accepted, exOla])
      ⟨by simp [exOla], by simp [exOla, OlaCall.len, OlaCall.bRows]⟩ (by simp [exOla]) (by simp [exOla])
      (by simp [exOla]) (by simp [exOla, OlaCall.fftLen, OlaCall.bRows]) _ 2 (by omega) (by omega) as

/-- One column of 2^31 samples, blocks of 2^31 - 1 samples, two filter coefficients. -/
noncomputable def exOlaLong : OlaCall ℝ where
  aM := 2 ^ 31
  aN := 1
  A := ⟨2 ^ 31, fun _ => 1⟩
  bM := 2
  bN := 1
  B := ⟨2, fun _ => 1⟩
  bl := 2 ^ 31 - 1
  mode := .equ
  L := exactLib
  S := fun _ _ => exScratch (2 ^ 31)
  ab := fun _ _ => ⟨2 ^ 31, fun _ => 7⟩
  y0 := fun _ => ⟨2 ^ 31, fun _ => 7⟩

theorem exOlaLong_sized : exOlaLong.Sized ⟨2 ^ 31 + 1, fun _ => 0⟩ where
  a := rfl
  b := rfl
  bM := by simp [exOlaLong]
  bN := by simp [exOlaLong]
  y := by simp [exOlaLong, OlaCall.len, OlaCall.bRows]
  scratch := fun _ _ => ⟨rfl, rfl, rfl, rfl, rfl, rfl⟩
  ab := fun _ _ => rfl
  y0 := fun _ => rfl

-- hypotheses of C93_ola_no_plan
example (ty : IdxTy) (as : List Act) :
    ((machInit ty 1 1 (⟨2 ^ 31 + 1, fun _ => 0⟩ : Buf ℝ)).bind fun s =>
      exec (exOlaLong.machTask ty 1) (.step 0 :: .step 0 :: as) s) = .ub .null :=
  C93_ola_no_plan exOlaLong ty _ exOlaLong_sized (by simp [OlaCall.accepted, exOlaLong])
    ⟨by simp [exOlaLong], by simp [exOlaLong, OlaCall.len, OlaCall.bRows]⟩ (by simp [exOlaLong])
    (.inr (by simp [OlaCall.fftLen, OlaCall.bRows, exOlaLong])) 1 (by omega) (by omega) 0 (by omega)
    (by simp [rangeStart, rangeStop, exOlaLong]) as

end Examples

end Dream
