import Verif.MachCopy
import Verif.ClaimsMachConv
import Verif.ClaimsCopy

/-
C93: machine integers in copy_p and add_p.
-/

namespace Dream
open Arith

variable {F : Type} [Arith F]

omit [Arith F] in
theorem Prog.forN_congr_lt {σ : Type} (f g : Nat → σ → Prog F σ) (k start : Nat) (s : σ)
    (h : ∀ i, start ≤ i → i < start + k → ∀ s, f i s = g i s) : Prog.forN f k start s = Prog.forN g k start s := by
  induction k generalizing start s with
  | zero => rfl
  | succ k ih =>
    simp only [Prog.forN]
    rw [h start (Nat.le_refl _) (by omega)]
    congr 1
    funext s'
    exact ih (start + 1) s' (fun i h1 h2 => h i (by omega) (by omega))

/-- Both matrices fit into an address space of `2^bits` bytes. -/
structure CopyCall.Fits (C : CopyCall F) (bits : Nat) : Prop where
  a : 8 * (C.aM * C.aN) < 2 ^ bits
  b : 8 * (C.bM * C.bN) < 2 ^ bits

namespace CopyCall

theorem machProg_ok {C : CopyCall F} (h : C.Fits 63) (ha : C.accepted = true) (hr : 1 ≤ C.r0)
    (hk : C.k0 = 1 ∧ C.k1 = C.aN) (ty : IdxTy) {n : Nat} (hn : n < C.aN) : C.machProg ty n = C.prog n := by
  obtain ⟨a1, a2, a3, a4, a5, a6, a7, a8⟩ := accepted_iff.mp ha
  have h1 := h.a
  have h2 := h.b
  have hbN : C.bN = C.aN := by omega
  have hk0 : C.k = 0 := by unfold k; omega
  have ha' : (n + 1) * C.aM ≤ C.aN * C.aM := Nat.mul_le_mul_right _ hn
  have hb' : (n + 1) * C.bM ≤ C.aN * C.bM := Nat.mul_le_mul_right _ hn
  rw [Nat.add_mul, Nat.one_mul, Nat.mul_comm C.aN] at ha' hb'
  rw [hbN] at h2
  have hc : C.aN ≤ C.aM * C.aN := Nat.le_mul_of_pos_left _ (by omega)
  have hr' : (C.r.toNat : Int) = C.r0 - 1 := by unfold r; omega
  have hlen : C.len = C.r1 - C.r0 + 1 := rfl
  have hat : C.machAt ty n = .ok (C.r.toNat + n * C.aM) := by
    unfold machAt
    rw [hk0]
    simp only [Int.toNat_zero, Nat.zero_add]
    rw [ty.norm_ok (by omega)]
    simp only [Outcome.bind]
    rw [ty.norm_ok (by omega)]
    simp only
    rw [ty.norm_ok (by omega)]
  have hfrom : C.machFrom ty n = .ok (n * C.bM) := ty.norm_ok (by omega)
  have haddr : ∀ l : Nat, ((C.r.toNat + n * C.aM + l : Nat) : Int) - ((n * C.aM : Nat) : Int) =
      C.r + C.k * C.aM + l := by
    intro l
    rw [hk0]
    have : C.r = C.r0 - 1 := rfl
    push_cast
    omega
  unfold machProg prog
  cases hop : C.op with
  | copy =>
    simp only [and_true]
    by_cases hneg : C.len < 0
    · rw [if_pos hneg, if_pos hneg]
    · rw [if_neg hneg, if_neg hneg, hat, hfrom]
      simp only [Prog.lift, Prog.bind]
      have hcount : C.machCount = C.len.toNat := by
        unfold machCount
        rw [Nat.mod_eq_of_lt (by omega)]
        omega
      rw [hcount]
      congr 1
      refine Prog.forN_congr_lt _ _ _ _ _ fun l _ hl _ => ?_
      unfold entry
      rw [hop]
      simp only [haddr]
      rfl
  | add =>
    simp only [reduceCtorEq, and_false, if_false]
    congr 1
    refine Prog.forN_congr_lt _ _ _ _ _ fun l _ hl _ => ?_
    rw [hat, hfrom]
    simp only [Prog.lift, Prog.bind]
    rw [ty.norm_ok (by omega), ty.norm_ok (by omega)]
    simp only [Prog.bind]
    unfold entry
    rw [hop]
    simp only [haddr]
    rfl

end CopyCall

/-- C93: copy_p and add_p: if both matrices fit into memory, the rows count from one, the columns are all the columns
of `A` (C39) and there are at most 8 workers, no index computation overflows and the number of bytes does not wrap
around: every execution with machine integers is the execution with exact ones. -/
theorem C93_copy (C : CopyCall F) (ty : IdxTy) (ha : C.accepted = true) (h : C.Fits 63) (hr : 1 ≤ C.r0)
    (hk : C.k0 = 1 ∧ C.k1 = C.aN) (A : Buf F) (nth : Nat) (hn : nth ≤ 8) (as : List Act) :
    ((machInit ty C.aN nth A).bind fun s => exec (C.machTask ty) as s) =
      exec C.drv.task as (initSys C.aN nth A) := by
  obtain ⟨a1, a2, a3, a4, a5, a6, a7, a8⟩ := CopyCall.accepted_iff.mp ha
  have h1 := h.a
  have hc : C.aN ≤ C.aM * C.aN := Nat.le_mul_of_pos_left _ (by omega)
  have h3 : nth * C.aN ≤ 8 * C.aN := Nat.mul_le_mul_right _ hn
  rw [C84_ranges ty C.aN nth A (by omega) (by omega)]
  refine exec_same (No := C.aN) ?_ ?_ as _ (sane_init _ _ _)
  · intro n hn
    show Outcome.ok (C.machProg ty n) = Outcome.ok (C.prog n)
    rw [CopyCall.machProg_ok h ha hr hk ty hn]
  · intro n l b hn
    rfl

/-- C93: in the 2^48-byte address space of current processors 2^18 workers are safe. -/
theorem C93_copy_48bit (C : CopyCall F) (ty : IdxTy) (ha : C.accepted = true) (h : C.Fits 48) (hr : 1 ≤ C.r0)
    (hk : C.k0 = 1 ∧ C.k1 = C.aN) (A : Buf F) (nth : Nat) (hn : nth ≤ 2 ^ 18) (as : List Act) :
    ((machInit ty C.aN nth A).bind fun s => exec (C.machTask ty) as s) =
      exec C.drv.task as (initSys C.aN nth A) := by
  obtain ⟨a1, a2, a3, a4, a5, a6, a7, a8⟩ := CopyCall.accepted_iff.mp ha
  have h1 := h.a
  have h2 := h.b
  have hc : C.aN ≤ C.aM * C.aN := Nat.le_mul_of_pos_left _ (by omega)
  have h3 : nth * C.aN ≤ 2 ^ 18 * C.aN := Nat.mul_le_mul_right _ hn
  rw [C84_ranges ty C.aN nth A (by omega) (by omega)]
  refine exec_same (No := C.aN) ?_ ?_ as _ (sane_init _ _ _)
  · intro n hn
    show Outcome.ok (C.machProg ty n) = Outcome.ok (C.prog n)
    rw [CopyCall.machProg_ok ⟨by omega, by omega⟩ ha hr hk ty hn]
  · intro n l b hn
    rfl

section Examples
attribute [local instance] toyArith

-- hypotheses of C93_copy and C93_copy_48bit: rows 2 and 3 of all columns; a column of 2^40 rows
example (op : CopyOp) : (exCopy op).accepted = true ∧ (exCopy op).Fits 63 ∧ (exCopy op).Fits 48 ∧ 1 ≤ (exCopy op).r0 ∧
    (exCopy op).k0 = 1 ∧ (exCopy op).k1 = (exCopy op).aN :=
  ⟨rfl, ⟨by simp [exCopy], by simp [exCopy]⟩, ⟨by simp [exCopy], by simp [exCopy]⟩, by simp [exCopy], rfl, rfl⟩

/-- All of a column of 2^40 rows. -/
def exCopyLong (op : CopyOp) : CopyCall Int := ⟨op, 2 ^ 40, 1, 1, 2 ^ 40, 1, 1, 2 ^ 40, 1, ⟨2 ^ 40, fun i => 10 + i⟩⟩

example (op : CopyOp) (ty : IdxTy) (as : List Act) :
    ((machInit ty 1 8 (⟨2 ^ 40, fun _ => 0⟩ : Buf Int)).bind fun s => exec ((exCopyLong op).machTask ty) as s) =
      exec (exCopyLong op).drv.task as (initSys 1 8 ⟨2 ^ 40, fun _ => 0⟩) :=
  C93_copy (exCopyLong op) ty (by simp [CopyCall.accepted, exCopyLong]) ⟨by simp [exCopyLong], by simp [exCopyLong]⟩
    (by simp [exCopyLong]) ⟨rfl, rfl⟩ _ 8 (by omega) as

end Examples

end Dream
