import Verif.CopyP
import Verif.ClaimsConv
import Mathlib.Tactic.Common

/-
C39: copy_p and add_p.
-/

namespace Dream
open Arith

variable {F : Type} [Arith F] {C : CopyCall F} {A : Buf F}

/-- Sizes of the two matrices and the documented meaning of the index vectors: `r0` to `r1` are
rows, `k0` to `k1` columns, counted from one (that they do not exceed `A` is checked). -/
structure CopyCall.Sized (C : CopyCall F) (A : Buf F) : Prop where
  a : A.size = C.aM * C.aN
  b : C.B.size = C.bM * C.bN
  r0 : 1 ≤ C.r0
  r1 : C.r0 ≤ C.r1
  k0 : 1 ≤ C.k0
  k1 : C.k0 ≤ C.k1

/-- The checks, as conditions. -/
theorem CopyCall.accepted_iff : C.accepted = true ↔
    1 ≤ C.r1 ∧ C.r0 ≤ C.aM ∧ C.r1 ≤ C.aM ∧ 1 ≤ C.k1 ∧ C.k0 ≤ C.aN ∧ C.k1 ≤ C.aN ∧
    C.r1 - C.r0 + 1 ≤ C.bM ∧ (C.bN : Int) = C.k1 - C.k0 + 1 := by
  unfold accepted
  simp only [Bool.and_eq_true, Bool.not_eq_true', decide_eq_false_iff_not, Bool.or_eq_false_iff]
  omega

/-- The value copy_p (`B`) or add_p (`A + B`) should leave in row `i` of column `n`. -/
def CopyCall.want (C : CopyCall F) (n i : Nat) (old : F) : F :=
  if C.r0 ≤ (i : Int) + 1 ∧ (i : Int) + 1 ≤ C.r1 then
    let b := C.B.data (n * C.bM + (i + 1 - C.r0.toNat))
    match C.op with
    | .copy => b
    | .add => old +. b
  else old

namespace CopyCall

theorem prog_run (h : C.Sized A) (ha : C.accepted = true) (hk : C.k0 = 1 ∧ C.k1 = C.aN) {n : Nat}
    (hn : n < C.aN) :
    (C.prog n).Safe C.aM (fun e => e = .none) ∧
    ∀ z, ∃ z', (C.prog n).runCol C.aM z = .ok (z', .none) ∧ ∀ i, z' i = C.want n i (z i) := by
  obtain ⟨a1, a2, a3, a4, a5, a6, a7, a8⟩ := accepted_iff.mp ha
  have hr0 := h.r0
  have hr1 := h.r1
  have hbN : C.bN = C.aN := by omega
  have hlen0 : ¬ (C.len < 0 ∧ C.op = .copy) := by unfold len; omega
  have hlen : (C.len.toNat : Int) = C.r1 - C.r0 + 1 := by unfold len; omega
  have hrow : (n + 1) * C.bM ≤ C.aN * C.bM := Nat.mul_le_mul_right _ hn
  rw [Nat.add_mul, Nat.one_mul, Nat.mul_comm C.aN] at hrow
  have hrd : ∀ l, l < C.len.toNat →
      C.B.read ((l + n * C.bM : Nat) : Int) = .ok (C.B.data (l + n * C.bM)) := by
    intro l hl
    rw [Buf.read_nat _ _ (by rw [h.b, hbN]; omega)]
  have hat : ∀ l : Nat, C.r + C.k * C.aM + l = ((C.r0.toNat - 1 + l : Nat) : Int) := by
    intro l
    have : C.k = 0 := by unfold k; omega
    rw [this]
    unfold r
    omega
  have hin : ∀ l, l < C.len.toNat →
      0 ≤ ((C.r0.toNat - 1 + l : Nat) : Int) ∧ ((C.r0.toNat - 1 + l : Nat) : Int) < (C.aM : Int) := by
    intro l hl
    omega
  constructor
  · unfold prog
    rw [if_neg hlen0]
    refine Prog.Safe.bind (Q := fun _ => True) ?_ (fun _ _ => rfl)
    refine (Prog.Safe.forN (P := fun _ _ => True) C.len.toNat 0 () ?_ trivial).weaken
      fun _ _ => trivial
    intro l _ hl _ _
    have hl' : l < C.len.toNat := by omega
    unfold entry
    rw [hrd l hl']
    simp only [hat]
    cases C.op
    · exact ⟨hin l hl', trivial⟩
    · exact ⟨hin l hl', fun _ => ⟨hin l hl', trivial⟩⟩
  · intro z
    obtain ⟨c', s', g1, g2⟩ := Prog.forN_runCol C.aM (fun l _ => C.entry n l)
      (fun l c' _ => ∀ i, c' i = if C.r0.toNat - 1 ≤ i ∧ i < C.r0.toNat - 1 + l then
        C.want n i (z i) else z i) C.len.toNat 0 () z (by
      intro l _ hl c _ hc
      have hl' : l < C.len.toNat := by omega
      have hval : ∀ old, C.want n (C.r0.toNat - 1 + l) old =
          match C.op with
          | .copy => C.B.data (l + n * C.bM)
          | .add => old +. C.B.data (l + n * C.bM) := by
        intro old
        unfold want
        rw [if_pos (by omega),
          show n * C.bM + (C.r0.toNat - 1 + l + 1 - C.r0.toNat) = l + n * C.bM by omega]
      unfold entry
      rw [hrd l hl']
      simp only [hat]
      cases hop : C.op with
      | copy =>
        refine ⟨_, (), by
          simp only [Prog.lift, Prog.bind, Prog.runCol]
          rw [if_pos (hin l hl')], ?_⟩
        intro i
        simp only [Int.toNat_natCast]
        by_cases hi : i = C.r0.toNat - 1 + l
        · subst hi
          rw [if_pos rfl, if_pos (by omega), hval, hop]
        · rw [if_neg hi, hc i]
          by_cases h2 : C.r0.toNat - 1 ≤ i ∧ i < C.r0.toNat - 1 + l
          · rw [if_pos h2, if_pos (by omega)]
          · rw [if_neg h2, if_neg (by omega)]
      | add =>
        refine ⟨_, (), by
          simp only [Prog.lift, Prog.bind, Prog.runCol]
          rw [if_pos (hin l hl'), if_pos (hin l hl')], ?_⟩
        intro i
        simp only [Int.toNat_natCast]
        by_cases hi : i = C.r0.toNat - 1 + l
        · subst hi
          rw [if_pos rfl, if_pos (by omega), hval, hop, hc, if_neg (by omega)]
        · rw [if_neg hi, hc i]
          by_cases h2 : C.r0.toNat - 1 ≤ i ∧ i < C.r0.toNat - 1 + l
          · rw [if_pos h2, if_pos (by omega)]
          · rw [if_neg h2, if_neg (by omega)]) (by intro i; rw [if_neg (by omega)])
    refine ⟨c', ?_, fun i => ?_⟩
    · unfold prog
      rw [if_neg hlen0, Prog.runCol_bind, g1]
      rfl
    · rw [g2 i]
      by_cases hi : C.r0.toNat - 1 ≤ i ∧ i < C.r0.toNat - 1 + (0 + C.len.toNat)
      · rw [if_pos hi]
      · rw [if_neg hi]
        unfold want
        rw [if_neg (by omega)]

theorem inside (h : C.Sized A) (n : Nat) (hn : n < C.aN) : n * C.aM + C.aM ≤ A.size := by
  have h1 : (n + 1) * C.aM ≤ C.aN * C.aM := Nat.mul_le_mul_right _ hn
  rw [Nat.add_mul, Nat.one_mul, Nat.mul_comm C.aN] at h1
  rw [h.a]
  exact h1

theorem progOk (h : C.Sized A) (ha : C.accepted = true) (hk : C.k0 = 1 ∧ C.k1 = C.aN) :
    ProgOk C.aN C.aM (fun n => n * C.aM) .none C.prog A where
  inside := inside h
  disj := fun i j _ _ hij => SirCall.cols_disj C.aM i j hij
  safe := fun n hn => by
    obtain ⟨z', e, _⟩ := (prog_run h ha hk hn).2 (A.getCol (n * C.aM) C.aM)
    rw [e]
    simp
  code := fun n hn r hr => by
    obtain ⟨z', e, _⟩ := (prog_run h ha hk hn).2 (A.getCol (n * C.aM) C.aM)
    rw [e] at hr
    simp only [Outcome.ok.injEq] at hr
    subst hr
    exact .inl rfl

theorem faithful (h : C.Sized A) (ha : C.accepted = true) (hk : C.k0 = 1 ∧ C.k1 = C.aN) :
    C.drv.Faithful A := Drv.ofProg_faithful (progOk h ha hk)

theorem defined (h : C.Sized A) (ha : C.accepted = true) (hk : C.k0 = 1 ∧ C.k1 = C.aN) :
    C.drv.Defined A :=
  Drv.ofProg_defined (progOk h ha hk) fun n hn =>
    let ⟨z', e, _⟩ := (prog_run h ha hk hn).2 (A.getCol (n * C.aM) C.aM)
    ⟨(z', .none), e⟩

end CopyCall

/-- C39: when the columns are all the columns of `A` no schedule, aborted or not, accesses memory
out of bounds. -/
theorem C39_no_oob (h : C.Sized A) (ha : C.accepted = true) (hk : C.k0 = 1 ∧ C.k1 = C.aN)
    (nth : Nat) (h1 : 1 ≤ nth) (as : List Act) :
    exec C.drv.task as (initSys C.aN nth A) ≠ .ub .oob :=
  Drv.ofProg_no_oob (CopyCall.inside h)
    (fun _ hn => (CopyCall.prog_run h ha hk hn).1.weaken fun _ _ => trivial) nth h1 as

/-- C39: then every schedule is defined, the workers end, and a complete run exists. -/
theorem C39_terminates (h : C.Sized A) (ha : C.accepted = true) (hk : C.k0 = 1 ∧ C.k1 = C.aN)
    (nth : Nat) :
    (∀ as, ∃ s', exec C.drv.task as (initSys C.aN nth A) = .ok s') ∧
    (∃ B : Nat → Nat, ∀ as s', exec C.drv.task as (initSys C.aN nth A) = .ok s' →
      ∀ w, w < nth → B w ≤ as.count (.step w) → s'.isDone w) ∧
    ∃ as s', Act.abort ∉ as ∧ C.drv.Run nth A as s' :=
  ⟨(Drv.terminates (CopyCall.faithful h ha hk) (CopyCall.defined h ha hk) nth).1,
    (Drv.terminates (CopyCall.faithful h ha hk) (CopyCall.defined h ha hk) nth).2,
    let ⟨_, s', g⟩ := Drv.run_exists (CopyCall.faithful h ha hk) (CopyCall.defined h ha hk) nth
    ⟨_, s', g⟩⟩

/-- C39: then every complete run leaves in rows `r0..r1` of every column the entries of `B` (added
to the old ones for add_p), and everything else unchanged. -/
theorem C39_block (h : C.Sized A) (ha : C.accepted = true) (hk : C.k0 = 1 ∧ C.k1 = C.aN)
    (nth : Nat) (h1 : 1 ≤ nth) (as : List Act) (hab : Act.abort ∉ as)
    (s' : Sys F (Prog F SIRError)) (hr : C.drv.Run nth A as s') (n : Nat) (hn : n < C.aN) (i : Nat)
    (hi : i < C.aM) :
    s'.mem.data (n * C.aM + i) =
      if C.r0 ≤ (i : Int) + 1 ∧ (i : Int) + 1 ≤ C.r1 then
        let b := C.B.data (n * C.bM + (i + 1 - C.r0.toNat))
        match C.op with
        | .copy => b
        | .add => A.data (n * C.aM + i) +. b
      else A.data (n * C.aM + i) := by
  obtain ⟨z', e, hv⟩ := (CopyCall.prog_run h ha hk hn).2 (A.getCol (n * C.aM) C.aM)
  obtain ⟨Y', f1, _, f3, _⟩ := Prog.runBuf_at (n * C.aM) C.aM A (CopyCall.inside h n hn)
    (C.prog n) z' .none e
  have hok : ∀ n, n < C.aN → ¬ C.drv.PointErr A n .outOfBounds := by
    rintro n hn ⟨fuel, m', hs⟩
    have hs' : (C.prog n).runBuf (n * C.aM) A = .ok (m', .outOfBounds) := hs
    obtain ⟨z', e, _⟩ := (CopyCall.prog_run h ha hk hn).2 (A.getCol (n * C.aM) C.aM)
    obtain ⟨Y', f1, _⟩ := Prog.runBuf_at (n * C.aM) C.aM A (CopyCall.inside h n hn) (C.prog n) z'
      .none e
    rw [f1] at hs'
    simp at hs'
  have hcol : s'.mem.data (n * C.aM + i) = Y'.data (n * C.aM + i) :=
    Drv.columns (CopyCall.faithful h ha hk) (CopyCall.defined h ha hk) nth h1 as hab hok s' hr n hn
      0 Y' .none f1 i hi
  rw [hcol, f3 i hi, hv i]
  simp only [Buf.getCol]
  rw [if_pos hi]
  rfl

/-- Every program of copy_p / add_p that returns reports no error. -/
theorem CopyCall.prog_rets (n : Nat) : (C.prog n).Rets (fun e => e ≠ .outOfBounds) := by
  unfold prog
  split
  · trivial
  · exact Prog.Rets.bind (Prog.Rets.trivial _) fun _ _ => by simp [Prog.Rets]

/-- The program of a column that `B` does not have never returns. -/
theorem CopyCall.prog_noRet (h : C.Sized A) {n : Nat} (hn : C.bN ≤ n) :
    (C.prog n).NoRet := by
  have hr1 := h.r1
  unfold prog
  split
  · trivial
  · refine Prog.NoRet.bind ?_
    obtain ⟨k, hk⟩ : ∃ k, C.len.toNat = k + 1 := ⟨C.len.toNat - 1, by unfold CopyCall.len; omega⟩
    rw [hk]
    simp only [Prog.forN]
    refine Prog.NoRet.bind ?_
    have hmul : C.bM * C.bN ≤ n * C.bM := by
      rw [Nat.mul_comm n]; exact Nat.mul_le_mul_left _ hn
    have : C.B.read ((0 + n * C.bM : Nat) : Int) = .ub .oob := by
      unfold Buf.read
      rw [if_neg]
      rw [h.b]
      omega
    unfold entry
    rw [this]
    trivial

/-- C39: when the columns are a proper part of the columns of `A`, the arguments pass the checks
if the sizes fit, but no complete run exists that is not aborted: the workers of the remaining
columns read outside `B`. -/
theorem C39_fewer_columns (h : C.Sized A) (ha : C.accepted = true)
    (hk : ¬ (C.k0 = 1 ∧ C.k1 = C.aN)) (nth : Nat) (h1 : 1 ≤ nth) :
    (∀ as s', Act.abort ∉ as → ¬ C.drv.Run nth A as s') ∧
    ∀ n, C.bN ≤ n → C.B.read ((0 + n * C.bM : Nat) : Int) = .ub .oob := by
  obtain ⟨a1, a2, a3, a4, a5, a6, a7, a8⟩ := CopyCall.accepted_iff.mp ha
  have hk0 := h.k0
  have hk1 := h.k1
  refine ⟨fun as s' hab => ?_, fun n hn => ?_⟩
  · exact Drv.ofProg_stuck A (C.aN - 1) (by omega) (CopyCall.prog_noRet h (by omega))
      (fun n _ => CopyCall.prog_rets n) nth h1 as hab s'
  · have hmul : C.bM * C.bN ≤ n * C.bM := by
      rw [Nat.mul_comm n]; exact Nat.mul_le_mul_left _ hn
    unfold Buf.read
    rw [if_neg]
    rw [h.b]
    omega

/-- C39: the check tests `r1` instead of `r0`: a first row 0 is accepted, and the first column then
accesses the entry before the first one of `A`. -/
theorem C39_row_zero (C : CopyCall F) (A : Buf F) (hr0 : C.r0 = 0) (hr1 : 1 ≤ C.r1 ∧ C.r1 ≤ C.aM)
    (hk : C.k0 = 1 ∧ C.k1 = C.aN) (hb : C.B.size = C.bM * C.bN) (hbM : C.r1 + 1 ≤ C.bM)
    (hbN : C.bN = C.aN) (haN : 1 ≤ C.aN) :
    C.accepted = true ∧ (C.prog 0).runBuf (0 * C.aM) A = .ub .oob := by
  refine ⟨CopyCall.accepted_iff.mpr (by omega), ?_⟩
  have hlen : ¬ (C.len < 0 ∧ C.op = .copy) := by unfold CopyCall.len; omega
  obtain ⟨m, hm⟩ : ∃ m, C.len.toNat = m + 1 := ⟨C.len.toNat - 1, by unfold CopyCall.len; omega⟩
  have hB : 1 ≤ C.B.size := by
    rw [hb]
    exact Nat.mul_pos (by omega) (by omega)
  have hrd : C.B.read ((0 + 0 * C.bM : Nat) : Int) = .ok (C.B.data 0) := by
    rw [Nat.zero_mul]
    exact Buf.read_nat _ _ hB
  have hk : C.k = 0 := by unfold CopyCall.k; omega
  have hr : C.r = -1 := by unfold CopyCall.r; omega
  unfold CopyCall.prog
  rw [if_neg hlen, Prog.runBuf_bind, hm]
  simp only [Prog.forN]
  rw [Prog.runBuf_bind]
  unfold CopyCall.entry
  rw [hrd, hk, hr]
  cases C.op <;> simp [Prog.lift, Prog.bind, Prog.runBuf, Buf.write, Buf.read, Outcome.bind]

/-! ### The hypotheses can be met -/

section Examples
attribute [local instance] toyArith

/-- Rows 2 to 3 of both columns of a 4 x 2 matrix. -/
def exCopy (op : CopyOp) : CopyCall Int := ⟨op, 4, 2, 2, 3, 1, 2, 2, 2, ⟨4, fun i => 10 + i⟩⟩

example (op : CopyOp) : (exCopy op).Sized ⟨8, fun _ => 0⟩ ∧ (exCopy op).accepted = true ∧
    (exCopy op).k0 = 1 ∧ (exCopy op).k1 = (exCopy op).aN :=
  ⟨⟨rfl, rfl, by cases op <;> decide, by cases op <;> decide, by cases op <;> decide,
    by cases op <;> decide⟩, rfl, rfl, rfl⟩

/-- Rows 2 to 3 of the second column only: accepted, but unsafe. -/
def exCopy2 (op : CopyOp) : CopyCall Int := ⟨op, 4, 2, 2, 3, 2, 2, 2, 1, ⟨2, fun i => 10 + i⟩⟩

example (op : CopyOp) : (exCopy2 op).Sized ⟨8, fun _ => 0⟩ ∧ (exCopy2 op).accepted = true ∧
    ¬ ((exCopy2 op).k0 = 1 ∧ (exCopy2 op).k1 = (exCopy2 op).aN) :=
  ⟨⟨rfl, rfl, by cases op <;> decide, by cases op <;> decide, by cases op <;> decide,
    by cases op <;> decide⟩, rfl, by simp [exCopy2]⟩

/-- A first row 0 that passes the checks. -/
example : (⟨.copy, 4, 2, 0, 3, 1, 2, 4, 2, ⟨8, fun _ => 0⟩⟩ : CopyCall Int).accepted = true := rfl

end Examples

end Dream
