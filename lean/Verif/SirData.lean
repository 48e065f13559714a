import Verif.ClaimsConv

/-
C38: the matrix object SIRData, include/dream.h 144-198.
-/

namespace Dream
open Arith

variable {F : Type} [Arith F]

/-- `SIRData`, include/dream.h 191-196: `h` is the memory `m_h` points at. -/
structure SIRData (F : Type) where
  h : Buf F
  size : Nat
  len : Nat
  No : Nat

namespace SIRData

/-- `SIRData(len, No)`, include/dream.h 148-154: `make_unique<double[]>` gives memory with value
0. -/
def owned (len No : Nat) : SIRData F := ⟨⟨len * No, fun _ => lit 0⟩, len, len, No⟩

/-- `SIRData(h, len)`, include/dream.h 156-161. -/
def ofPtr (h : Buf F) (len : Nat) : SIRData F := ⟨h, len, len, 1⟩

/-- `SIRData(h, len, No)`, include/dream.h 163-168. -/
def ofMat (h : Buf F) (len No : Nat) : SIRData F := ⟨h, len * No, len, No⟩

/-- `clear()`, include/dream.h 172-176. -/
def clear (d : SIRData F) : Outcome (SIRData F) :=
  (forO (fun (it : Nat) h => h.write (it : Int) (lit 0)) d.size 0 d.h).map fun h => { d with h := h }

end SIRData

theorem clear_loop (k : Nat) : ∀ (start : Nat) (b : Buf F), start + k ≤ b.size →
    ∃ b', forO (fun (it : Nat) (h : Buf F) => h.write (it : Int) (lit 0)) k start b = .ok b' ∧
      b'.size = b.size ∧ ∀ i, b'.data i = if start ≤ i ∧ i < start + k then lit 0 else b.data i := by
  induction k with
  | zero => intro start b _; exact ⟨b, rfl, rfl, fun i => by rw [if_neg (by omega)]⟩
  | succ k ih =>
    intro start b hb
    have hw : b.write (start : Int) (lit 0) =
        .ok { b with data := fun j => if j = start then lit 0 else b.data j } := by
      unfold Buf.write
      rw [if_pos (by omega)]
      rfl
    obtain ⟨b', g1, g2, g3⟩ := ih (start + 1)
      { b with data := fun j => if j = start then lit 0 else b.data j } (by show _ ≤ b.size; omega)
    refine ⟨b', ?_, g2, fun i => ?_⟩
    · simp only [forO]
      rw [hw]
      exact g1
    · rw [g3 i]
      show (if _ then _ else (if i = start then lit 0 else b.data i)) = _
      by_cases h1 : i = start
      · rw [if_neg (by omega), if_pos h1, if_pos (by omega)]
      · by_cases h2 : start + 1 ≤ i ∧ i < start + 1 + k
        · rw [if_pos h2, if_pos (by omega)]
        · rw [if_neg h2, if_neg h1, if_neg (by omega)]

theorem clear_loop_oob (k : Nat) : ∀ (start : Nat) (b : Buf F), start ≤ b.size →
    b.size < start + k →
    forO (fun (it : Nat) (h : Buf F) => h.write (it : Int) (lit 0)) k start b = .ub .oob := by
  induction k with
  | zero => intro start b _ h; omega
  | succ k ih =>
    intro start b hb h
    simp only [forO]
    by_cases h1 : start < b.size
    · have hw : b.write (start : Int) (lit 0) =
          .ok { b with data := fun j => if j = start then lit 0 else b.data j } := by
        unfold Buf.write
        rw [if_pos (by omega)]
        rfl
      rw [hw]
      exact ih (start + 1) _ (by show _ ≤ b.size; omega) (by show b.size < _; omega)
    · unfold Buf.write
      rw [if_neg (by omega)]
      rfl

/-- C38: clearing a matrix object built over caller memory of at least `len*No` entries sets
exactly the first `len*No` entries to 0 and keeps the rest; with less memory it writes out of
bounds. -/
theorem C38_clear_matrix (h : Buf F) (len No : Nat) :
    (len * No ≤ h.size → ∃ d, (SIRData.ofMat h len No).clear = .ok d ∧ d.h.size = h.size ∧
      (∀ i, i < len * No → d.h.data i = lit 0) ∧ ∀ i, len * No ≤ i → d.h.data i = h.data i) ∧
    (h.size < len * No → (SIRData.ofMat h len No).clear = .ub .oob) := by
  constructor
  · intro hs
    obtain ⟨b', g1, g2, g3⟩ := clear_loop (len * No) 0 h (by omega)
    refine ⟨⟨b', len * No, len, No⟩, ?_, g2, fun i hi => ?_, fun i hi => ?_⟩
    · unfold SIRData.clear SIRData.ofMat
      simp only [g1, Outcome.map]
    · show b'.data i = _
      rw [g3 i, if_pos (by omega)]
    · show b'.data i = _
      rw [g3 i, if_neg (by omega)]
  · intro hs
    unfold SIRData.clear SIRData.ofMat
    simp only [clear_loop_oob (len * No) 0 h (Nat.zero_le _) (by omega), Outcome.map]

/-- C38: an object over one response clears exactly `len` entries. -/
theorem C38_clear_vector (h : Buf F) (len : Nat) (hs : len ≤ h.size) :
    ∃ d, (SIRData.ofPtr h len).clear = .ok d ∧ d.h.size = h.size ∧
      (∀ i, i < len → d.h.data i = lit 0) ∧ ∀ i, len ≤ i → d.h.data i = h.data i := by
  obtain ⟨b', g1, g2, g3⟩ := clear_loop len 0 h (by omega)
  refine ⟨⟨b', len, len, 1⟩, ?_, g2, fun i hi => ?_, fun i hi => ?_⟩
  · unfold SIRData.clear SIRData.ofPtr
    simp only [g1, Outcome.map]
  · show b'.data i = _
    rw [g3 i, if_pos (by omega)]
  · show b'.data i = _
    rw [g3 i, if_neg (by omega)]

/-- C38: an object that owns its `len x No` matrix clears only the first of the `No` columns:
after writing `v` to the matrix, clearing leaves `v` in all other columns. -/
theorem C38_clear_owned (len No : Nat) (hNo : 1 ≤ No) (v : Nat → F) :
    ∃ d, ({ (SIRData.owned len No : SIRData F) with h := ⟨len * No, v⟩ }).clear = .ok d ∧
      (∀ i, i < len → d.h.data i = lit 0) ∧ ∀ i, len ≤ i → d.h.data i = v i := by
  obtain ⟨b', g1, _, g3⟩ := clear_loop len 0 (⟨len * No, v⟩ : Buf F)
    (by show 0 + len ≤ len * No; have := Nat.mul_le_mul_left len hNo; omega)
  refine ⟨⟨b', len, len, No⟩, ?_, fun i hi => ?_, fun i hi => ?_⟩
  · unfold SIRData.clear SIRData.owned
    simp only [g1, Outcome.map]
  · show b'.data i = _
    rw [g3 i, if_pos (by omega)]
  · show b'.data i = _
    rw [g3 i, if_neg (by omega)]

/-- C38: a new object that owns its matrix is zero everywhere without clearing. -/
theorem C38_new_owned (len No i : Nat) (_hi : i < len * No) :
    (SIRData.owned len No : SIRData F).h.data i = lit 0 ∧
    (SIRData.owned len No : SIRData F).h.size = len * No := ⟨rfl, rfl⟩

/-- C38: so the matrix after `clear()` of an owned object is all zero exactly if everything after
its first column was zero before. -/
theorem C38_owned_not_cleared (len No : Nat) (hNo : 1 ≤ No) (v : Nat → F) (d : SIRData F)
    (hd : ({ (SIRData.owned len No : SIRData F) with h := ⟨len * No, v⟩ }).clear = .ok d) :
    (∀ i, i < len * No → d.h.data i = lit 0) ↔ ∀ i, len ≤ i → i < len * No → v i = lit 0 := by
  obtain ⟨d', h1, h2, h3⟩ := C38_clear_owned len No hNo v
  rw [hd] at h1
  simp only [Outcome.ok.injEq] at h1
  subst h1
  constructor
  · intro h i hi hi2
    rw [← h3 i hi]
    exact h i hi2
  · intro h i hi
    by_cases hl : i < len
    · exact h2 i hl
    · rw [h3 i (by omega)]
      exact h i (by omega) hi

section Examples
attribute [local instance] toyArith

/-- A 2 x 2 matrix of ones that owns its memory is not zero after `clear()`. -/
example : ∃ d, ({ (SIRData.owned 2 2 : SIRData Int) with h := ⟨4, fun _ => (1 : Int)⟩ }).clear = .ok d ∧
    d.h.data 1 = 0 ∧ d.h.data 2 = 1 := by
  obtain ⟨d, h1, h2, h3⟩ := C38_clear_owned (F := Int) 2 2 (by decide) (fun _ => 1)
  exact ⟨d, h1, h2 1 (by decide), h3 2 (by decide)⟩

/-- The same over caller memory is. -/
example : ∃ d, (SIRData.ofMat (⟨4, fun _ => 1⟩ : Buf Int) 2 2).clear = .ok d ∧
    d.h.data 3 = 0 := by
  obtain ⟨d, h1, _, h2, _⟩ := (C38_clear_matrix (⟨4, fun _ => 1⟩ : Buf Int) 2 2).1 (by decide)
  exact ⟨d, h1, h2 3 (by decide)⟩

end Examples

end Dream
