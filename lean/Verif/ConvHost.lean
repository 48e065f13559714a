import Verif.ArgParser
import Verif.ConvP
import Verif.ProgBad

/-
The Python function `fftconv_p` and the Julia functions `fftconv_p` and `conv_p`:
python/include/py_fftconv_p.hpp, julia/src/jl_fftconv_p.cc, julia/src/jl_conv_p.cc.
-/

namespace Dream
open Arith

variable {F : Type} [Arith F]

/-- The three host functions. -/
inductive ConvHost
  | pyFft     -- python/include/py_fftconv_p.hpp 37-86
  | jlFft     -- julia/src/jl_fftconv_p.cc 176-336
  | jlConv    -- julia/src/jl_conv_p.cc 128-278
  deriving DecidableEq

/-- How `A_M`, `A_N` (and `B_M`, `B_N`) are read from an argument.  Python
(py_fftconv_p.hpp 43-48, 52-57): `shape[0]`, and `shape[1]` only if the array has exactly two
dimensions, otherwise 1.  Julia (jl_fftconv_p.cc 190-196, jl_conv_p.cc 142-148): both sizes of a
two-dimensional `Array` (the language admits no other argument). -/
def ConvHost.mn (h : ConvHost) (a : Arg F) : Outcome (Nat × Nat) :=
  (a.dim 0).bind fun m =>
  match h with
  | .pyFft => if a.shape.length = 2 then (a.dim 1).bind fun n => .ok (m, n) else .ok (m, 1)
  | _ => (a.dim 1).bind fun n => .ok (m, n)

/-- The workers of `conv_p` convolve in the time domain, those of `fftconv_p` with FFTs
(jl_conv_p.cc 94-110, jl_fftconv_p.cc 80-147, extra_src/fftconv_p.cc 77-147). -/
def ConvHost.kind (h : ConvHost) (L : FFTLib F) (S : Nat → Scratch F) : ConvKind F :=
  match h with
  | .jlConv => .time
  | _ => .fft L S

/-- What the host function does with its arguments: an exception, or the threaded computation on a
fresh `len x aN` matrix whose memory is not initialised. -/
inductive ConvHostRes (F : Type) where
  | error
  | call (C : ConvCall F)

/-- The host functions up to the start of the workers: py_fftconv_p.hpp 43-80 (with
`ConvMode::equ`, the default argument of `FFTConvP::run`, include/fftconv_p.h), jl_fftconv_p.cc
183-209 and 262-267, jl_conv_p.cc 135-161 and 199-204.  If both arguments are empty the number of
rows is `0+0-1`; no host can make such a matrix, and the exception it raises is `error` here
(simplification: Julia's `fftconv_p` asks FFTW for plans of that length first). -/
def convHost (h : ConvHost) (L : FFTLib F) (S : Nat → Scratch F) (A B : Arg F) :
    Outcome (ConvHostRes F) :=
  (h.mn A).bind fun a =>
  (h.mn B).bind fun b =>
  let C : ConvCall F := ⟨a.1, a.2, A.buf, b.1, b.2, B.buf, .equ, h.kind L S⟩
  if C.accepted then
    if C.aM + C.bRows = 0 then .ok .error else .ok (.call C)
  else .ok .error

/-! ### Early interruption -/

namespace Drv
variable {L : Type} {D : Drv F L} {m : Buf F}

/-- If the signal arrives before the workers have finished their first column, a complete run can
leave every column that is not the first of a worker's range as it was. -/
theorem abort_early (hs : D.Faithful m) (hd : D.Defined m) (nth : Nat) (h1 : 1 ≤ nth) :
    ∃ k s', D.Run nth m (.abort :: roundRobin nth k) s' ∧
      ∀ n, n < D.No → (∀ w, w < nth → n ≠ rangeStart D.No nth w) →
        ∀ j, j < D.len → s'.mem.data (D.base n + j) = m.data (D.base n + j) := by
  obtain ⟨hdef, B, hB⟩ := terminates hs hd nth
  have hmax : ∃ k, ∀ w, w < nth → B w ≤ k := by
    clear hdef hB h1
    induction nth with
    | zero => exact ⟨0, fun w h => absurd h (by omega)⟩
    | succ n ih =>
      obtain ⟨k, hk⟩ := ih
      refine ⟨k + B n, fun w hw => ?_⟩
      by_cases h : w = n
      · subst h; omega
      · have := hk w (by omega); omega
  obtain ⟨k, hk⟩ := hmax
  obtain ⟨s', hs'⟩ := hdef (.abort :: roundRobin nth k)
  have hrun : D.Run nth m (.abort :: roundRobin nth k) s' := by
    refine ⟨hs', fun w hw => ?_⟩
    refine hB _ _ hs' w hw ?_
    have hc : ∀ j, j ≤ (roundRobin nth j).count (.step w) := by
      intro j
      induction j with
      | zero => omega
      | succ j ih =>
        simp only [roundRobin, List.replicate_succ, List.flatten_cons, List.count_append] at ih ⊢
        have : 1 ≤ ((List.range nth).map Act.step).count (.step w) := by
          rw [List.one_le_count_iff]
          exact List.mem_map.mpr ⟨w, List.mem_range.mpr hw, rfl⟩
        omega
    have h3 := hc k
    have h4 := hk w hw
    rw [List.count_cons]
    omega
  refine ⟨k, s', hrun, fun n hn hne j hj => ?_⟩
  obtain ⟨J, rfl', hNo, hmem, hlen, hbase, _⟩ := with_job hs hd
  have R : J.Runs nth (.abort :: roundRobin nth k) s' := by
    simp only [Job.Runs, rfl', hNo, hmem]; exact hrun
  obtain ⟨rem, inv⟩ := R.inv
  obtain ⟨w, hw, hlo, hhi⟩ := owner_exists D.No nth n h1 hn
  have W := inv.workers w hw
  rw [hNo] at W
  have hdone := R.done w hw
  have hn1 : (s'.ws w).n ≤ rangeStart D.No nth w + 1 := by
    have he : exec D.task (roundRobin nth k)
        { (initSys D.No nth m : Sys F L) with running := false } = .ok s' := hs'
    have := (at_most_one_more D _ _ s' rfl he w).2.2
    have e2 : (({ (initSys D.No nth m : Sys F L) with running := false }).ws w).n
        = rangeStart D.No nth w := by
      simp [initSys, hw]
    rw [e2] at this
    exact this
  have hlt : rangeStart D.No nth w ≠ n := fun e => hne w hw e.symm
  have hcol := W.after n (by simp only [Job.fin, hdone]; omega) hhi (by rw [hdone]; simp)
  simp only [Job.c0, hbase, hlen, hmem] at hcol
  exact getCol_eq hcol j hj

end Drv

/-! ### Empty arguments -/

theorem padCopy_overflow (src : Nat → Outcome F) (x : Nat → F) (n : Nat) (a : Buf F)
    (ha : a.size + 1 = n) (hx : ∀ i, i < n → src i = .ok (x i)) (N : Nat) :
    padCopy src n N a = .ub .oob := by
  have key : ∀ k start (b : Buf F), b.size = a.size → start + k = n → 1 ≤ k →
      forO (fun (i : Nat) b => (src i).bind fun v => b.write (i : Int) v) k start b = .ub .oob := by
    intro k
    induction k with
    | zero => intro _ _ _ _ h; omega
    | succ k ih =>
      intro start b hb hs _
      simp only [forO]
      rw [hx start (by omega), Outcome.ok_bind]
      by_cases hk : k = 0
      · have : ¬ (0 ≤ (start : Int) ∧ (start : Int) < (b.size : Int)) := by omega
        unfold Buf.write
        rw [if_neg this]
        rfl
      · rw [Buf.write_nat _ _ _ (by omega), Outcome.ok_bind]
        exact ih (start + 1) _ hb (by omega) (by omega)
  unfold padCopy
  rw [key n 0 a rfl (by omega) (by omega)]
  rfl

end Dream
