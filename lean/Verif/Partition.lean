import Verif.Base

/-
Number of workers and the index range of each worker.
-/

namespace Dream

/-- Number of worker threads, src/dreamrect.cc 186-207 (the same text in every driver):
`hw` is `std::thread::hardware_concurrency()`, `env` the value of `DREAM_NUM_THREADS`
(`std::stoul`; texts that are not such a number: `chooseThreads` in EnvThreads), `No` the number of
observation points or columns. -/
def numThreads (hw : Nat) (env : Option Nat) (No : Nat) : Nat :=
  let n := hw
  let n := match env with
    | some e => if e < n then e else n
    | none => n
  let n := if n > No then No else n
  if n < 1 then 1 else n

/-- `dream_idx_type start = thread_n * No/nthreads;`, src/dreamrect.cc 224.  The product is
exact here; machine arithmetic is in Mach.lean (C84). -/
def rangeStart (No nth k : Nat) : Nat := k * No / nth

/-- `dream_idx_type stop = (thread_n+1) * No/nthreads;`, src/dreamrect.cc 225. -/
def rangeStop (No nth k : Nat) : Nat := (k + 1) * No / nth

theorem rangeStop_eq (No nth k : Nat) : rangeStop No nth k = rangeStart No nth (k + 1) := rfl

theorem rangeStart_zero (No nth : Nat) : rangeStart No nth 0 = 0 := by
  simp [rangeStart]

theorem rangeStart_last (No nth : Nat) (h : 1 ≤ nth) : rangeStart No nth nth = No := by
  simp only [rangeStart]
  exact Nat.mul_div_cancel_left No (by omega)

theorem rangeStart_mono (No nth : Nat) {j k : Nat} (h : j ≤ k) :
    rangeStart No nth j ≤ rangeStart No nth k :=
  Nat.div_le_div_right (Nat.mul_le_mul_right No h)

theorem rangeStart_le (No nth k : Nat) (h1 : 1 ≤ nth) (hk : k ≤ nth) :
    rangeStart No nth k ≤ No := by
  have := rangeStart_mono No nth hk
  rwa [rangeStart_last No nth h1] at this

/-- Some worker owns `i`. -/
theorem owner_exists (No nth i : Nat) (h1 : 1 ≤ nth) (hi : i < No) :
    ∃ k, k < nth ∧ rangeStart No nth k ≤ i ∧ i < rangeStop No nth k := by
  have key : ∀ n, i < rangeStart No nth n →
      ∃ k, k < n ∧ rangeStart No nth k ≤ i ∧ i < rangeStop No nth k := by
    intro n
    induction n with
    | zero => intro h; rw [rangeStart_zero] at h; omega
    | succ n ih =>
      intro h
      by_cases hn : i < rangeStart No nth n
      · obtain ⟨k, hk, hh⟩ := ih hn
        exact ⟨k, by omega, hh⟩
      · exact ⟨n, by omega, by omega, h⟩
  exact key nth (by rw [rangeStart_last No nth h1]; exact hi)

/-- At most one worker owns `i`. -/
theorem owner_unique (No nth i j k : Nat)
    (hj : rangeStart No nth j ≤ i ∧ i < rangeStop No nth j)
    (hk : rangeStart No nth k ≤ i ∧ i < rangeStop No nth k) : j = k := by
  rcases Nat.lt_trichotomy j k with h | h | h
  · have := rangeStart_mono No nth (show j + 1 ≤ k from h)
    rw [← rangeStop_eq] at this
    omega
  · exact h
  · have := rangeStart_mono No nth (show k + 1 ≤ j from h)
    rw [← rangeStop_eq] at this
    omega

end Dream
