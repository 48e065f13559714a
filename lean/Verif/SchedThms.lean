import Verif.Sched

/-
Invariants of the interleaving semantics, for arbitrary schedules.
-/

namespace Dream
open Arith

variable {F : Type} [Arith F] {L : Type}

/-- The last error different from `none` among `f lo, ..., f (lo+k-1)`. -/
def lastErr (f : Nat → SIRError) (lo : Nat) : Nat → SIRError
  | 0 => .none
  | k + 1 => if f (lo + k) = .none then lastErr f lo k else f (lo + k)

theorem lastErr_none_iff (f : Nat → SIRError) (lo k : Nat) :
    lastErr f lo k = .none ↔ ∀ i, lo ≤ i → i < lo + k → f i = .none := by
  induction k with
  | zero => simp only [lastErr, true_iff]; intro i h1 h2; omega
  | succ k ih =>
    simp only [lastErr]
    split
    · next h =>
      rw [ih]
      constructor
      · intro hh i h1 h2
        by_cases hi : i = lo + k
        · rw [hi, h]
        · exact hh i h1 (by omega)
      · intro hh i h1 h2
        exact hh i h1 (by omega)
    · next h =>
      constructor
      · intro hh; exact absurd hh h
      · intro hh; exact hh _ (by omega) (by omega)

theorem lastErr_mem (f : Nat → SIRError) (lo k : Nat) (h : lastErr f lo k ≠ .none) :
    ∃ i, lo ≤ i ∧ i < lo + k ∧ f i = lastErr f lo k := by
  induction k with
  | zero => exact absurd rfl h
  | succ k ih =>
    simp only [lastErr] at h ⊢
    split at h
    · next h' =>
      obtain ⟨i, h1, h2, h3⟩ := ih h
      exact ⟨i, h1, by omega, by rw [if_pos h', h3]⟩
    · next h' =>
      exact ⟨lo + k, by omega, by omega, by rw [if_neg h']⟩

/-- What is known about the tasks before the run: `No` columns that do not overlap and lie
inside the matrix, and for each column the result `res n` the task computes alone from the
initial content, in `steps n` micro steps. -/
structure Job (F L : Type) [Arith F] where
  t : Task F L
  No : Nat
  base : Nat → Nat
  len : Nat
  mic : ColProg F L
  loc : t.Local base len mic
  mem : Buf F
  inside : ∀ n, n < No → base n + len ≤ mem.size
  disj : ∀ i j, i < No → j < No → i ≠ j →
    base i + len ≤ base j ∨ base j + len ≤ base i
  res : Nat → (Nat → F) × SIRError
  steps : Nat → Nat
  ends : ∀ n, n < No → ∃ l, t.begin n = .ok l ∧
    Evals mic n (steps n) l (mem.getCol (base n) len) (res n)

namespace Job
variable (J : Job F L)

/-- Initial content of column `n`. -/
def c0 (n : Nat) : Nat → F := J.mem.getCol (J.base n) J.len

/-- Error code of column `n`. -/
def err (n : Nat) : SIRError := (J.res n).2

/-- Upper bound for the steps needed for columns `n, ..., n+k-1` by one worker. -/
def cost (n : Nat) : Nat → Nat
  | 0 => 1
  | k + 1 => J.steps n + 3 + cost (n + 1) k

/-- Columns finished by a worker whose state is `x`: `lo ≤ i < fin x`. -/
def fin (x : Worker L) : Nat :=
  match x.pc with
  | .signal _ => x.n + 1
  | .check => x.n + 1
  | _ => x.n

/-- Columns whose error has been signalled: `lo ≤ i < sig x`. -/
def sig (x : Worker L) : Nat :=
  match x.pc with
  | .check => x.n + 1
  | _ => x.n

/-- Where the worker is, and how many steps it can still take (`rem`). -/
def Pos (s : Sys F L) (x : Worker L) (hi rem : Nat) : Prop :=
  match x.pc with
  | .fetch => x.n ≤ hi ∧ rem = J.cost x.n (hi - x.n)
  | .run l => x.n < hi ∧ ∃ k, rem = k + 2 + J.cost (x.n + 1) (hi - (x.n + 1)) ∧
      Evals J.mic x.n k l (s.mem.getCol (J.base x.n) J.len) (J.res x.n)
  | .signal e => x.n < hi ∧ e = J.err x.n ∧ rem = 2 + J.cost (x.n + 1) (hi - (x.n + 1))
  | .check => x.n < hi ∧ rem = 1 + J.cost (x.n + 1) (hi - (x.n + 1))
  | .done => x.n ≤ hi ∧ (x.n < hi → s.running = false) ∧ rem = 0

/-- Invariant of one worker with range `lo ≤ i < hi`. -/
structure WInv (s : Sys F L) (x : Worker L) (lo hi rem : Nat) : Prop where
  stop : x.stop = hi
  lo_le : lo ≤ x.n
  pos : J.Pos s x hi rem
  before : ∀ i, lo ≤ i → i < fin x → s.mem.getCol (J.base i) J.len = (J.res i).1
  after : ∀ i, fin x ≤ i → i < hi → (∀ l, x.pc = .run l → i ≠ x.n) →
    s.mem.getCol (J.base i) J.len = J.c0 i
  errv : x.err = lastErr J.err lo (fin x - lo)
  sigv : ∀ i, lo ≤ i → i < sig x → J.err i = .outOfBounds → s.running = false

/-- Invariant of the whole system with `nth` workers; `ab` tells whether the run has been
aborted, `rem w` bounds the remaining steps of worker `w`. -/
structure Inv (nth : Nat) (s : Sys F L) (ab : Bool) (rem : Nat → Nat) : Prop where
  size : s.mem.size = J.mem.size
  frame : ∀ j, (∀ n, n < J.No → j < J.base n ∨ J.base n + J.len ≤ j) →
    s.mem.data j = J.mem.data j
  workers : ∀ w, w < nth →
    J.WInv s (s.ws w) (rangeStart J.No nth w) (rangeStop J.No nth w) (rem w)
  ghosts : ∀ w, nth ≤ w → (s.ws w).pc = .done
  flag : s.running = false → ab = true ∨
    ∃ w, w < nth ∧ ∃ i, rangeStart J.No nth w ≤ i ∧ i < sig (s.ws w) ∧ J.err i = .outOfBounds
  flag' : ab = true → s.running = false

theorem evals_pad {n k : Nat} {l : L} {c : Nat → F} {r} (h : Evals J.mic n k l c r)
    (hc : ∀ i, J.len ≤ i → c i = lit 0) : ∀ i, J.len ≤ i → r.1 i = lit 0 := by
  induction h with
  | last h1 => exact J.loc.pad _ _ _ _ _ h1 hc
  | more h1 _ ih => exact ih (J.loc.pad _ _ _ _ _ h1 hc)

theorem getCol_pad (m : Buf F) (b len : Nat) : ∀ i, len ≤ i → m.getCol b len i = lit 0 := by
  intro i hi
  simp only [Buf.getCol]
  rw [if_neg (by omega)]

theorem getCol_set (m : Buf F) (b len : Nat) (c : Nat → F) (hc : ∀ i, len ≤ i → c i = lit 0) :
    (m.setCol b len c).getCol b len = c := by
  rw [Buf.getCol_setCol_self]
  funext i
  split
  · rfl
  · exact (hc i (by omega)).symm

/-- The initial state satisfies the invariant. -/
theorem inv_init (nth : Nat) :
    J.Inv nth (initSys J.No nth J.mem) false
      (fun w => J.cost (rangeStart J.No nth w) (rangeStop J.No nth w - rangeStart J.No nth w))
    where
  size := rfl
  frame := fun _ _ => rfl
  workers := by
    intro w hw
    have hle : rangeStart J.No nth w ≤ rangeStop J.No nth w := rangeStart_mono _ _ (by omega)
    have hx : ((initSys J.No nth J.mem : Sys F L).ws w) =
        { n := rangeStart J.No nth w, stop := rangeStop J.No nth w, pc := .fetch,
          err := .none } := by
      simp [initSys, hw]
    rw [hx]
    constructor
    · rfl
    · exact Nat.le_refl _
    · exact ⟨hle, rfl⟩
    · intro i h1 h2; simp only [fin] at h2; omega
    · intro i _ _ _; rfl
    · simp [fin, lastErr]
    · intro i h1 h2; simp only [sig] at h2; omega
  ghosts := by
    intro w hw
    simp [initSys, Nat.not_lt.mpr hw]
  flag := by intro h; simp [initSys] at h
  flag' := by intro h; simp at h

/-- A worker's invariant survives changes elsewhere. -/
theorem WInv.frame {J : Job F L} {s s' : Sys F L} {x : Worker L} {lo hi rem : Nat}
    (h : J.WInv s x lo hi rem)
    (hm : ∀ i, lo ≤ i → i < hi →
      s'.mem.getCol (J.base i) J.len = s.mem.getCol (J.base i) J.len)
    (hr : s.running = false → s'.running = false) : J.WInv s' x lo hi rem := by
  have hlo := h.lo_le
  have hpos := h.pos
  have hfin : fin x ≤ hi := by
    unfold Pos at hpos; unfold fin
    split at hpos <;> simp_all <;> omega
  refine ⟨h.stop, h.lo_le, ?_, ?_, ?_, h.errv, ?_⟩
  · unfold Pos at hpos ⊢
    split
    · next he => simpa [he] using hpos
    · next l hl =>
      simp only [hl] at hpos
      rw [hm _ hlo hpos.1]
      exact hpos
    · next e he => simpa [he] using hpos
    · next he => simpa [he] using hpos
    · next he =>
      simp only [he] at hpos
      exact ⟨hpos.1, fun h' => hr (hpos.2.1 h'), hpos.2.2⟩
  · intro i h1 h2
    rw [hm i h1 (by omega)]
    exact h.before i h1 h2
  · intro i h1 h2 h3
    have : lo ≤ fin x := by unfold fin; split <;> omega
    rw [hm i (by omega) h2]
    exact h.after i h1 h2 h3
  · intro i h1 h2 h3
    exact hr (h.sigv i h1 h2 h3)

theorem fin_le {J : Job F L} {s : Sys F L} {x : Worker L} {lo hi rem : Nat}
    (h : J.WInv s x lo hi rem) : fin x ≤ hi := by
  have hpos := h.pos
  unfold Pos at hpos
  unfold fin
  split at hpos <;> simp_all <;> omega

/-- Update of one worker. -/
theorem Inv.upd {J : Job F L} {nth : Nat} {s s' : Sys F L} {ab : Bool} {rem : Nat → Nat}
    (hi : J.Inv nth s ab rem) (v : Nat) (hv : v < nth) (x' : Worker L) (r' : Nat)
    (hws : s'.ws = fun u => if u = v then x' else s.ws u)
    (hsize : s'.mem.size = s.mem.size)
    (hframe : ∀ j, (∀ n, n < J.No → j < J.base n ∨ J.base n + J.len ≤ j) →
      s'.mem.data j = s.mem.data j)
    (hcols : ∀ i, i < J.No → (i < rangeStart J.No nth v ∨ rangeStop J.No nth v ≤ i) →
      s'.mem.getCol (J.base i) J.len = s.mem.getCol (J.base i) J.len)
    (hrun : s.running = false → s'.running = false)
    (hnew : J.WInv s' x' (rangeStart J.No nth v) (rangeStop J.No nth v) r')
    (hsig : sig (s.ws v) ≤ sig x')
    (hfl : s'.running = false → s.running = false ∨
      ∃ i, rangeStart J.No nth v ≤ i ∧ i < sig x' ∧ J.err i = .outOfBounds) :
    J.Inv nth s' ab (fun u => if u = v then r' else rem u) where
  size := by rw [hsize, hi.size]
  frame := by
    intro j hj
    rw [hframe j hj, hi.frame j hj]
  workers := by
    intro w hw
    rw [hws]
    by_cases h : w = v
    · subst h; simpa using hnew
    · simp only [if_neg h]
      refine (hi.workers w hw).frame ?_ hrun
      intro i h1 h2
      refine hcols i ?_ ?_
      · have := rangeStart_le J.No nth (w + 1) (by omega) (by omega)
        rw [← rangeStop_eq] at this
        omega
      · by_cases h3 : rangeStart J.No nth v ≤ i ∧ i < rangeStop J.No nth v
        · exact absurd (owner_unique J.No nth i w v ⟨h1, h2⟩ h3) h
        · omega
  ghosts := by
    intro w hw
    rw [hws]
    have : w ≠ v := by omega
    simp only [if_neg this]
    exact hi.ghosts w hw
  flag := by
    intro h
    have key : (ab = true ∨ ∃ w, w < nth ∧ ∃ i, rangeStart J.No nth w ≤ i ∧ i < sig (s.ws w) ∧
        J.err i = .outOfBounds) → (ab = true ∨ ∃ w, w < nth ∧ ∃ i, rangeStart J.No nth w ≤ i ∧
        i < sig (s'.ws w) ∧ J.err i = .outOfBounds) := by
      rintro (h | ⟨w, hw, i, h1, h2, h3⟩)
      · exact Or.inl h
      · refine Or.inr ⟨w, hw, i, h1, ?_, h3⟩
        rw [hws]
        by_cases h : w = v
        · subst h; simp only [if_pos]; omega
        · simpa only [if_neg h] using h2
    rcases hfl h with h' | ⟨i, h1, h2, h3⟩
    · exact key (hi.flag h')
    · refine Or.inr ⟨v, hv, i, h1, ?_, h3⟩
      rw [hws]
      simpa using h2
  flag' := fun h => hrun (hi.flag' h)

/-- Every step of a worker is defined, keeps the invariant, and uses up one of its remaining
steps. -/
theorem inv_stepWorker {nth : Nat} {s : Sys F L} {ab : Bool} {rem : Nat → Nat}
    (hi : J.Inv nth s ab rem) (v : Nat) :
    ∃ s' r', stepWorker J.t v s = .ok s' ∧
      J.Inv nth s' ab (fun u => if u = v then r' else rem u) ∧ r' ≤ rem v - 1 := by
  by_cases hv : nth ≤ v
  · refine ⟨s, rem v - 1, ?_, ?_, Nat.le_refl _⟩
    · simp [stepWorker, hi.ghosts v hv]
    · refine ⟨hi.size, hi.frame, ?_, hi.ghosts, hi.flag, hi.flag'⟩
      intro w hw
      have : w ≠ v := by omega
      simp only [if_neg this]
      exact hi.workers w hw
  replace hv : v < nth := by omega
  have W := hi.workers v hv
  have hstop : rangeStop J.No nth v ≤ J.No := by
    rw [rangeStop_eq]; exact rangeStart_le J.No nth (v + 1) (by omega) (by omega)
  generalize hx : s.ws v = x at W
  generalize hlo : rangeStart J.No nth v = lo at W
  generalize hhi : rangeStop J.No nth v = hi' at W hstop
  obtain ⟨xn, xstop, xpc, xerr⟩ := x
  obtain ⟨Wstop, Wlo, Wpos, Wbef, Waft, Werr, Wsig⟩ := W
  simp only at Wstop Wlo
  subst Wstop
  have hlohi : ∀ i, (i < lo ∨ xstop ≤ i) ↔
      (i < rangeStart J.No nth v ∨ rangeStop J.No nth v ≤ i) := by
    intro i; rw [hlo, hhi]
  cases xpc with
  | done =>
    refine ⟨s, 0, ?_, ?_, by omega⟩
    · simp [stepWorker, hx]
    · have e0 : rem v = 0 := by simp only [Pos] at Wpos; exact Wpos.2.2
      have : (fun u => if u = v then 0 else rem u) = rem := by
        funext u; split
        · next h => rw [h, e0]
        · rfl
      rw [this]; exact hi
  | fetch =>
    obtain ⟨hle, hrem⟩ : xn ≤ xstop ∧ rem v = J.cost xn (xstop - xn) := Wpos
    by_cases hlt : xn < xstop
    · obtain ⟨l, hl, hE⟩ := J.ends xn (by omega)
      have hcost : J.cost xn (xstop - xn) =
          J.steps xn + 3 + J.cost (xn + 1) (xstop - (xn + 1)) := by
        have : xstop - xn = (xstop - (xn + 1)) + 1 := by omega
        rw [this]; rfl
      refine ⟨s.setW v ⟨xn, xstop, .run l, xerr⟩,
        J.steps xn + 2 + J.cost (xn + 1) (xstop - (xn + 1)), ?_, ?_, by omega⟩
      · simp [stepWorker, hx, hlt, hl]
      · refine hi.upd v hv _ _ rfl rfl (fun _ _ => rfl) (fun _ _ _ => rfl) (fun h => h) ?_ ?_
          (fun h => Or.inl h)
        · rw [hlo, hhi]
          refine ⟨rfl, Wlo, ?_, Wbef, ?_, Werr, Wsig⟩
          · refine ⟨hlt, J.steps xn, rfl, ?_⟩
            have : s.mem.getCol (J.base xn) J.len = J.c0 xn :=
              Waft xn (Nat.le_refl _) hlt (by intro l h; simp at h)
            show Evals J.mic xn _ l (s.mem.getCol _ _) _
            rw [this]; exact hE
          · intro i h1 h2 _
            exact Waft i h1 h2 (by intro l h; simp at h)
        · rw [hx]; simp [sig]
    · have hcost : J.cost xn (xstop - xn) = 1 := by
        have : xstop - xn = 0 := by omega
        rw [this]; rfl
      refine ⟨s.setW v ⟨xn, xstop, .done, xerr⟩, 0, ?_, ?_, by omega⟩
      · simp [stepWorker, hx, hlt]
      · refine hi.upd v hv _ _ rfl rfl (fun _ _ => rfl) (fun _ _ _ => rfl) (fun h => h) ?_ ?_
          (fun h => Or.inl h)
        · rw [hlo, hhi]
          refine ⟨rfl, Wlo, ?_, Wbef, ?_, Werr, Wsig⟩
          · exact ⟨hle, fun h => absurd h hlt, rfl⟩
          · intro i h1 h2 _
            exact Waft i h1 h2 (by intro l h; simp at h)
        · rw [hx]; simp [sig]
  | run l =>
    obtain ⟨hlt, k, hrem, hE⟩ : xn < xstop ∧ ∃ k,
        rem v = k + 2 + J.cost (xn + 1) (xstop - (xn + 1)) ∧
        Evals J.mic xn k l (s.mem.getCol (J.base xn) J.len) (J.res xn) := Wpos
    have hin : J.base xn + J.len ≤ s.mem.size := by
      rw [hi.size]; exact J.inside xn (by omega)
    have hpad0 := getCol_pad s.mem (J.base xn) J.len
    -- columns other than `xn`
    have hoth : ∀ c i, i < J.No → i ≠ xn →
        (s.mem.setCol (J.base xn) J.len c).getCol (J.base i) J.len =
          s.mem.getCol (J.base i) J.len := by
      intro c i h1 h2
      exact Buf.getCol_setCol_other _ _ _ _ _ (J.disj xn i (by omega) h1 (fun h => h2 h.symm))
    have hfr : ∀ c j, (∀ n, n < J.No → j < J.base n ∨ J.base n + J.len ≤ j) →
        (s.mem.setCol (J.base xn) J.len c).data j = s.mem.data j := by
      intro c j hj
      exact Buf.setCol_data_out _ _ _ _ _ (hj xn (by omega))
    generalize hr : J.res xn = r at hE
    cases hE with
    | @last _ _ c' e hm =>
      have hlift := J.loc.lift xn l s.mem _ _ hin hm
      have hpad := J.loc.pad _ _ _ _ _ hm hpad0
      refine ⟨({ s with mem := s.mem.setCol (J.base xn) J.len c' } : Sys F L).setW v
        ⟨xn, xstop, .signal e, if e = .none then xerr else e⟩,
        2 + J.cost (xn + 1) (xstop - (xn + 1)), ?_, ?_, by omega⟩
      · simp [stepWorker, hx, hlift]
      · refine hi.upd v hv _ _ rfl rfl (hfr c') ?_ (fun h => h) ?_ ?_
          (fun h => Or.inl h)
        · intro i h1 h2
          rw [← hlohi] at h2
          exact hoth c' i h1 (by omega)
        · rw [hlo, hhi]
          refine ⟨rfl, Wlo, ?_, ?_, ?_, ?_, Wsig⟩
          · exact ⟨hlt, by simp [err, hr], rfl⟩
          · intro i h1 h2
            simp only [fin] at h2
            show (s.mem.setCol _ _ _).getCol _ _ = _
            by_cases h3 : i = xn
            · subst h3
              rw [getCol_set _ _ _ _ hpad, hr]
            · rw [hoth c' i (by omega) h3]
              exact Wbef i h1 (by simp only [fin]; omega)
          · intro i h1 h2 _
            simp only [fin] at h1
            show (s.mem.setCol _ _ _).getCol _ _ = _
            rw [hoth c' i (by omega) (by omega)]
            exact Waft i (by simp only [fin]; omega) h2 (by intro l h; simp; omega)
          · simp only [fin] at Werr ⊢
            have : xn + 1 - lo = (xn - lo) + 1 := by omega
            rw [this]
            simp only [lastErr]
            have : lo + (xn - lo) = xn := by omega
            rw [this, ← Werr]
            simp [err, hr]
        · rw [hx]; simp [sig]
    | @more k' _ _ c' l' _ hm hE' =>
      have hlift := J.loc.lift xn l s.mem _ _ hin hm
      have hpad := J.loc.pad _ _ _ _ _ hm hpad0
      refine ⟨({ s with mem := s.mem.setCol (J.base xn) J.len c' } : Sys F L).setW v
        ⟨xn, xstop, .run l', xerr⟩,
        k' + 2 + J.cost (xn + 1) (xstop - (xn + 1)), ?_, ?_, by omega⟩
      · simp [stepWorker, hx, hlift]
      · refine hi.upd v hv _ _ rfl rfl (hfr c') ?_ (fun h => h) ?_ ?_
          (fun h => Or.inl h)
        · intro i h1 h2
          rw [← hlohi] at h2
          exact hoth c' i h1 (by omega)
        · rw [hlo, hhi]
          refine ⟨rfl, Wlo, ?_, ?_, ?_, Werr, Wsig⟩
          · refine ⟨hlt, k', rfl, ?_⟩
            show Evals J.mic xn k' l' ((s.mem.setCol _ _ _).getCol _ _) _
            rw [getCol_set _ _ _ _ hpad, hr]
            exact hE'
          · intro i h1 h2
            simp only [fin] at h2
            show (s.mem.setCol _ _ _).getCol _ _ = _
            rw [hoth c' i (by omega) (by omega)]
            exact Wbef i h1 h2
          · intro i h1 h2 h3
            have h4 : i ≠ xn := h3 l' rfl
            show (s.mem.setCol _ _ _).getCol _ _ = _
            rw [hoth c' i (by omega) h4]
            exact Waft i h1 h2 (by intro l h; exact h4)
        · rw [hx]; simp [sig]
  | signal e =>
    obtain ⟨hlt, he, hrem⟩ : xn < xstop ∧ e = J.err xn ∧
        rem v = 2 + J.cost (xn + 1) (xstop - (xn + 1)) := Wpos
    refine ⟨({ s with running := if e = SIRError.outOfBounds then false else s.running } :
        Sys F L).setW v ⟨xn, xstop, .check, xerr⟩,
      1 + J.cost (xn + 1) (xstop - (xn + 1)), ?_, ?_, by omega⟩
    · simp [stepWorker, hx]
    · refine hi.upd v hv _ _ rfl rfl (fun _ _ => rfl) (fun _ _ _ => rfl) ?_ ?_ ?_ ?_
      · intro h
        show (if e = SIRError.outOfBounds then false else s.running) = false
        simp [h]
      · rw [hlo, hhi]
        refine ⟨rfl, Wlo, ⟨hlt, rfl⟩, Wbef, ?_, Werr, ?_⟩
        · intro i h1 h2 _
          exact Waft i h1 h2 (by intro l h; simp at h)
        · intro i h1 h2 h3
          show (if e = SIRError.outOfBounds then false else s.running) = false
          simp only [sig] at h2
          by_cases h4 : i = xn
          · subst h4; rw [he, h3]; simp
          · have := Wsig i h1 (by simp only [sig]; omega) h3
            simp [this]
      · rw [hx]; simp [sig]
      · intro h
        have h' : (if e = SIRError.outOfBounds then false else s.running) = false := h
        by_cases h4 : e = SIRError.outOfBounds
        · right
          exact ⟨xn, by omega, by simp [sig], by rw [← he, h4]⟩
        · rw [if_neg h4] at h'
          exact Or.inl h'
  | check =>
    obtain ⟨hlt, hrem⟩ : xn < xstop ∧
        rem v = 1 + J.cost (xn + 1) (xstop - (xn + 1)) := Wpos
    by_cases hrun : s.running = true
    · refine ⟨s.setW v ⟨xn + 1, xstop, .fetch, xerr⟩,
        J.cost (xn + 1) (xstop - (xn + 1)), ?_, ?_, by omega⟩
      · simp [stepWorker, hx, hrun]
      · refine hi.upd v hv _ _ rfl rfl (fun _ _ => rfl) (fun _ _ _ => rfl) (fun h => h) ?_ ?_
          (fun h => Or.inl h)
        · rw [hlo, hhi]
          refine ⟨rfl, by show lo ≤ xn + 1; omega, ⟨hlt, rfl⟩, Wbef, ?_, Werr, Wsig⟩
          intro i h1 h2 _
          exact Waft i h1 h2 (by intro l h; simp at h)
        · rw [hx]; simp [sig]
    · replace hrun : s.running = false := by simpa using hrun
      refine ⟨s.setW v ⟨xn + 1, xstop, .done, xerr⟩, 0, ?_, ?_, by omega⟩
      · simp [stepWorker, hx, hrun]
      · refine hi.upd v hv _ _ rfl rfl (fun _ _ => rfl) (fun _ _ _ => rfl) (fun h => h) ?_ ?_
          (fun h => Or.inl h)
        · rw [hlo, hhi]
          refine ⟨rfl, by show lo ≤ xn + 1; omega, ⟨hlt, fun _ => hrun, rfl⟩, Wbef, ?_, Werr,
            Wsig⟩
          intro i h1 h2 _
          exact Waft i h1 h2 (by intro l h; simp at h)
        · rw [hx]; simp [sig]

/-- Abort keeps the invariant. -/
theorem inv_abort {nth : Nat} {s : Sys F L} {ab : Bool} {rem : Nat → Nat}
    (hi : J.Inv nth s ab rem) : J.Inv nth { s with running := false } true rem where
  size := hi.size
  frame := hi.frame
  workers := fun w hw => (hi.workers w hw).frame (fun _ _ _ => rfl) (fun _ => rfl)
  ghosts := hi.ghosts
  flag := fun _ => Or.inl rfl
  flag' := fun _ => rfl

/-- The schedule contains an abort. -/
def aborted (as : List Act) : Bool := as.any (· == .abort)

/-- The invariant holds after every schedule, and every schedule is defined. -/
theorem inv_exec {nth : Nat} (as : List Act) {s : Sys F L} {ab : Bool} {rem : Nat → Nat}
    (hi : J.Inv nth s ab rem) :
    ∃ s' rem', exec J.t as s = .ok s' ∧ J.Inv nth s' (ab || as.any (· == .abort)) rem' ∧
      ∀ w, rem' w ≤ rem w - as.count (.step w) := by
  induction as generalizing s ab rem with
  | nil => exact ⟨s, rem, rfl, by simpa using hi, by intro w; simp⟩
  | cons a as ih =>
    cases a with
    | abort =>
      obtain ⟨s', rem', h1, h2, h3⟩ := ih (J.inv_abort hi)
      refine ⟨s', rem', ?_, ?_, ?_⟩
      · simp [exec, stepSys, h1]
      · simpa using h2
      · intro w
        simpa [List.count_cons] using h3 w
    | step v =>
      obtain ⟨s1, r1, e1, hi1, hr1⟩ := J.inv_stepWorker hi v
      obtain ⟨s', rem', h1, h2, h3⟩ := ih hi1
      refine ⟨s', rem', ?_, ?_, ?_⟩
      · simp [exec, stepSys, e1, h1]
      · have : (Act.step v == Act.abort) = false := by simp
        simpa [this] using h2
      · intro w
        have := h3 w
        by_cases h : w = v
        · subst h
          simp only [if_pos] at this
          simp only [List.count_cons_self]
          omega
        · simp only [if_neg h] at this
          have h' : (Act.step v == Act.step w) = false := by
            simp only [beq_eq_false_iff_ne, ne_eq, Act.step.injEq]
            exact fun h'' => h h''.symm
          simp only [List.count_cons, h']
          simpa using this

/-! ### Consequences for complete runs -/

/-- A run of the driver with `nth` workers under schedule `as` that has reached the join. -/
def Runs (nth : Nat) (as : List Act) (s' : Sys F L) : Prop :=
  exec J.t as (initSys J.No nth J.mem) = .ok s' ∧ s'.allDone nth

theorem reach {nth : Nat} (as : List Act) :
    ∃ s' rem', exec J.t as (initSys J.No nth J.mem) = .ok s' ∧
      J.Inv nth s' (aborted as) rem' ∧ ∀ w, rem' w ≤
        J.cost (rangeStart J.No nth w) (rangeStop J.No nth w - rangeStart J.No nth w)
          - as.count (.step w) := by
  have := J.inv_exec as (J.inv_init nth)
  simpa [aborted] using this

theorem Runs.inv {J : Job F L} {nth : Nat} {as : List Act} {s' : Sys F L}
    (h : J.Runs nth as s') : ∃ rem, J.Inv nth s' (aborted as) rem := by
  obtain ⟨s'', rem, h1, h2, _⟩ := J.reach (nth := nth) as
  rw [h.1] at h1
  simp only [Outcome.ok.injEq] at h1
  subst h1
  exact ⟨rem, h2⟩

theorem Runs.done {J : Job F L} {nth : Nat} {as : List Act} {s' : Sys F L}
    (h : J.Runs nth as s') (w : Nat) (hw : w < nth) : (s'.ws w).pc = .done := by
  have := h.2 w hw
  unfold Sys.isDone at this
  split at this
  · assumption
  · exact absurd this id

/-- No schedule runs into undefined behaviour. -/
theorem exec_defined (nth : Nat) (as : List Act) :
    ∃ s', exec J.t as (initSys J.No nth J.mem) = .ok s' := by
  obtain ⟨s', _, h, _⟩ := J.reach (nth := nth) as
  exact ⟨s', h⟩

/-- At the join every column is finished or untouched; it is untouched only when the run flag
is down. -/
theorem Runs.column {J : Job F L} {nth : Nat} {as : List Act} {s' : Sys F L} (h1 : 1 ≤ nth)
    (h : J.Runs nth as s') (i : Nat) (hi : i < J.No) :
    s'.mem.getCol (J.base i) J.len = (J.res i).1 ∨
      (s'.mem.getCol (J.base i) J.len = J.c0 i ∧ s'.running = false) := by
  obtain ⟨rem, inv⟩ := h.inv
  obtain ⟨w, hw, hlo, hhi⟩ := owner_exists J.No nth i h1 hi
  have W := inv.workers w hw
  have hd := h.done w hw
  have hp := W.pos
  simp only [Pos, hd] at hp
  by_cases hn : i < (s'.ws w).n
  · left; exact W.before i hlo (by simp only [fin, hd]; exact hn)
  · right
    exact ⟨W.after i (by simp only [fin, hd]; omega) hhi (by rw [hd]; simp),
      hp.2.1 (by omega)⟩

/-- Without abort, the flag is down at the join iff some column is out of bounds. -/
theorem Runs.running_iff {J : Job F L} {nth : Nat} {as : List Act} {s' : Sys F L} (h1 : 1 ≤ nth)
    (h : J.Runs nth as s') (hab : aborted as = false) :
    s'.running = false ↔ ∃ i, i < J.No ∧ J.err i = .outOfBounds := by
  obtain ⟨rem, inv⟩ := h.inv
  constructor
  · intro hr
    rcases inv.flag hr with h' | ⟨w, hw, i, hlo, hs, he⟩
    · rw [hab] at h'; simp at h'
    · refine ⟨i, ?_, he⟩
      have hd := h.done w hw
      have W := inv.workers w hw
      have hp := W.pos
      simp only [Pos, hd] at hp
      simp only [sig, hd] at hs
      have h4 := rangeStart_le J.No nth (w + 1) (by omega) (by omega)
      rw [← rangeStop_eq] at h4
      omega
  · rintro ⟨i, hi, he⟩
    obtain ⟨w, hw, hlo, hhi⟩ := owner_exists J.No nth i h1 hi
    have hd := h.done w hw
    have W := inv.workers w hw
    have hp := W.pos
    simp only [Pos, hd] at hp
    by_cases hn : i < (s'.ws w).n
    · exact W.sigv i hlo (by simp only [sig, hd]; exact hn) he
    · exact hp.2.1 (by omega)

/-- Everything outside the columns is untouched. -/
theorem Runs.frame {J : Job F L} {nth : Nat} {as : List Act} {s' : Sys F L}
    (h : J.Runs nth as s') :
    s'.mem.size = J.mem.size ∧
    ∀ j, (∀ n, n < J.No → j < J.base n ∨ J.base n + J.len ≤ j) →
      s'.mem.data j = J.mem.data j := by
  obtain ⟨rem, inv⟩ := h.inv
  exact ⟨inv.size, inv.frame⟩

/-- Error field of each worker when the flag stayed up. -/
theorem Runs.err {J : Job F L} {nth : Nat} {as : List Act} {s' : Sys F L}
    (h : J.Runs nth as s') (w : Nat) (hw : w < nth) (hr : s'.running = true) :
    (s'.ws w).err = lastErr J.err (rangeStart J.No nth w)
      (rangeStop J.No nth w - rangeStart J.No nth w) := by
  obtain ⟨rem, inv⟩ := h.inv
  have hd := h.done w hw
  have W := inv.workers w hw
  have hp := W.pos
  simp only [Pos, hd] at hp
  have he := W.errv
  simp only [fin, hd] at he
  have : (s'.ws w).n = rangeStop J.No nth w := by
    rcases Nat.lt_or_ge (s'.ws w).n (rangeStop J.No nth w) with h' | h'
    · have := hp.2.1 h'; rw [hr] at this; simp at this
    · omega
  rw [he, this]

/-- Error field of each worker in general: it is the code of one of its columns, or `none`
when all columns it has processed had code `none`. -/
theorem Runs.err_general {J : Job F L} {nth : Nat} {as : List Act} {s' : Sys F L}
    (h : J.Runs nth as s') (w : Nat) (hw : w < nth) :
    ∃ n, rangeStart J.No nth w ≤ n ∧ n ≤ rangeStop J.No nth w ∧
      (s'.ws w).err = lastErr J.err (rangeStart J.No nth w) (n - rangeStart J.No nth w) ∧
      (n < rangeStop J.No nth w → s'.running = false) ∧
      (∀ i, rangeStart J.No nth w ≤ i → i < n →
        s'.mem.getCol (J.base i) J.len = (J.res i).1) ∧
      (∀ i, n ≤ i → i < rangeStop J.No nth w →
        s'.mem.getCol (J.base i) J.len = J.c0 i) := by
  obtain ⟨rem, inv⟩ := h.inv
  have hd := h.done w hw
  have W := inv.workers w hw
  have hp := W.pos
  simp only [Pos, hd] at hp
  have he := W.errv
  simp only [fin, hd] at he
  refine ⟨(s'.ws w).n, W.lo_le, hp.1, he, hp.2.1, ?_, ?_⟩
  · intro i h1 h2; exact W.before i h1 (by simp only [fin, hd]; exact h2)
  · intro i h1 h2; exact W.after i (by simp only [fin, hd]; exact h1) h2 (by rw [hd]; simp)

/-- Termination: a worker that has been given `cost` steps has returned. -/
theorem done_of_count {nth : Nat} (as : List Act) (s' : Sys F L)
    (h : exec J.t as (initSys J.No nth J.mem) = .ok s') (w : Nat) (hw : w < nth)
    (hc : J.cost (rangeStart J.No nth w) (rangeStop J.No nth w - rangeStart J.No nth w)
      ≤ as.count (.step w)) : s'.isDone w := by
  obtain ⟨s'', rem, h1, inv, h3⟩ := J.reach (nth := nth) as
  rw [h] at h1
  simp only [Outcome.ok.injEq] at h1
  subst h1
  have h4 : rem w = 0 := by have := h3 w; omega
  have hp := (inv.workers w hw).pos
  rw [h4] at hp
  have hcost : ∀ n k, 1 ≤ J.cost n k := by
    intro n k
    induction k generalizing n with
    | zero => simp [cost]
    | succ k ih => simp only [cost]; have := ih (n + 1); omega
  unfold Sys.isDone
  unfold Pos at hp
  split at hp
  · have := hcost (s'.ws w).n (rangeStop J.No nth w - (s'.ws w).n); omega
  · obtain ⟨_, k, hk, _⟩ := hp; omega
  · omega
  · omega
  · next he => rw [he]; trivial

end Job

/-! ### After the flag has been cleared -/

omit [Arith F] in
theorem stepWorker_running {t : Task F L} {w : Nat} {s s' : Sys F L}
    (h : stepWorker t w s = .ok s') (hr : s.running = false) : s'.running = false := by
  unfold stepWorker at h
  simp only at h
  split at h
  · simp only [Outcome.ok.injEq] at h; subst h; exact hr
  · split at h
    · cases hb : t.begin (s.ws w).n with
      | ok l =>
        rw [hb] at h
        simp only [Outcome.bind, Outcome.ok.injEq] at h; subst h; exact hr
      | ub e => rw [hb] at h; simp at h
      | fuel => rw [hb] at h; simp at h
    · simp only [Outcome.ok.injEq] at h; subst h; exact hr
  · next l hl =>
    cases hb : t.micro (s.ws w).n l s.mem with
    | ok r =>
      rw [hb] at h
      obtain ⟨m, r⟩ := r
      cases r with
      | inl l' => simp only [Outcome.bind, Outcome.ok.injEq] at h; subst h; exact hr
      | inr e => simp only [Outcome.bind, Outcome.ok.injEq] at h; subst h; exact hr
    | ub e => rw [hb] at h; simp at h
    | fuel => rw [hb] at h; simp at h
  · simp only [Outcome.ok.injEq] at h; subst h
    simp [Sys.setW, hr]
  · split at h
    · next h' => rw [hr] at h'; simp at h'
    · simp only [Outcome.ok.injEq] at h; subst h; exact hr

/-- How far a worker can get beyond column `n0` once the flag is down. -/
def Within (x : Worker L) (n0 : Nat) : Prop :=
  x.n = n0 ∨ (x.n = n0 + 1 ∧ x.pc = .done)

omit [Arith F] in
theorem stepWorker_within {t : Task F L} {w : Nat} {s s' : Sys F L}
    (h : stepWorker t w s = .ok s') (hr : s.running = false) (v n0 : Nat)
    (hw : Within (s.ws v) n0) : Within (s'.ws v) n0 := by
  have other : ∀ (s1 : Sys F L) (x : Worker L), s1.ws = s.ws → v ≠ w →
      Within ((s1.setW w x).ws v) n0 := by
    intro s1 x h1 h2
    simp only [Sys.setW, if_neg h2, h1]; exact hw
  have self : ∀ (s1 : Sys F L) (x : Worker L), s1.ws = s.ws →
      (v = w → Within x n0) → Within ((s1.setW w x).ws v) n0 := by
    intro s1 x h1 h2
    by_cases h3 : v = w
    · simp only [Sys.setW, if_pos h3]; exact h2 h3
    · exact other s1 x h1 h3
  have nd : v = w → (s.ws w).pc ≠ .done → (s.ws w).n = n0 := by
    intro h1 h2
    subst h1
    rcases hw with h3 | h3
    · exact h3
    · exact absurd h3.2 h2
  unfold stepWorker at h
  simp only at h
  split at h
  · simp only [Outcome.ok.injEq] at h; subst h; exact hw
  · next hpc =>
    split at h
    · cases hb : t.begin (s.ws w).n with
      | ok l =>
        rw [hb] at h
        simp only [Outcome.bind, Outcome.ok.injEq] at h; subst h
        exact self _ _ rfl (fun e => Or.inl (nd e (by rw [hpc]; simp)))
      | ub e => rw [hb] at h; simp at h
      | fuel => rw [hb] at h; simp at h
    · simp only [Outcome.ok.injEq] at h; subst h
      exact self _ _ rfl (fun e => Or.inl (nd e (by rw [hpc]; simp)))
  · next l hpc =>
    cases hb : t.micro (s.ws w).n l s.mem with
    | ok r =>
      rw [hb] at h
      obtain ⟨m, r⟩ := r
      cases r with
      | inl l' =>
        simp only [Outcome.bind, Outcome.ok.injEq] at h; subst h
        exact self _ _ rfl (fun e => Or.inl (nd e (by rw [hpc]; simp)))
      | inr e' =>
        simp only [Outcome.bind, Outcome.ok.injEq] at h; subst h
        exact self _ _ rfl (fun e => Or.inl (nd e (by rw [hpc]; simp)))
    | ub e => rw [hb] at h; simp at h
    | fuel => rw [hb] at h; simp at h
  · next e' hpc =>
    simp only [Outcome.ok.injEq] at h; subst h
    exact self _ _ rfl (fun e => Or.inl (nd e (by rw [hpc]; simp)))
  · next hpc =>
    split at h
    · next h' => rw [hr] at h'; simp at h'
    · simp only [Outcome.ok.injEq] at h; subst h
      refine self _ _ rfl (fun e => Or.inr ⟨?_, rfl⟩)
      have := nd e (by rw [hpc]; simp)
      simp only; omega

omit [Arith F] in
/-- Once the flag is down it stays down, and each worker finishes at most one more column. -/
theorem exec_after_clear {t : Task F L} (as : List Act) {s s' : Sys F L}
    (h : exec t as s = .ok s') (hr : s.running = false) (v n0 : Nat)
    (hw : Within (s.ws v) n0) : s'.running = false ∧ Within (s'.ws v) n0 := by
  induction as generalizing s with
  | nil => simp only [exec, Outcome.ok.injEq] at h; subst h; exact ⟨hr, hw⟩
  | cons a as ih =>
    simp only [exec] at h
    cases ha : stepSys t a s with
    | ok s1 =>
      rw [ha] at h
      cases a with
      | abort =>
        simp only [stepSys, Outcome.ok.injEq] at ha
        subst ha
        exact ih h rfl hw
      | step w =>
        exact ih h (stepWorker_running ha hr) (stepWorker_within ha hr v n0 hw)
    | ub e => rw [ha] at h; simp at h
    | fuel => rw [ha] at h; simp at h

omit [Arith F] in
theorem exec_append {t : Task F L} (as bs : List Act) (s : Sys F L) :
    exec t (as ++ bs) s = (exec t as s).bind (exec t bs) := by
  induction as generalizing s with
  | nil => rfl
  | cons a as ih =>
    simp only [List.cons_append, exec]
    cases stepSys t a s with
    | ok s1 => simp only [Outcome.bind]; exact ih s1
    | ub e => rfl
    | fuel => rfl

/-! ### Join -/

theorem foldl_last (err : Nat → SIRError) (n : Nat) :
    (List.range n).foldl (fun e w => if err w ≠ .none then err w else e) .none =
      lastErr err 0 n := by
  induction n with
  | zero => rfl
  | succ n ih =>
    rw [List.range_succ, List.foldl_append, ih]
    simp only [List.foldl_cons, List.foldl_nil, lastErr, Nat.zero_add]
    by_cases h : err n = .none <;> simp [h]

end Dream
