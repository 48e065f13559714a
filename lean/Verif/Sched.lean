import Verif.Partition
import Verif.KernelThms

/-
Interleaving semantics of a threaded driver.

The driver starts `nth` workers over disjoint ranges of observation points.  A scheduler,
which is an arbitrary list of actions, decides which worker takes its next micro step, and
when the user presses CTRL-C.  One micro step is a single access to the output matrix, a
single access to the flag `running` (atomic in most functions, see C75), or a thread-local computation.
-/

namespace Dream
open Arith

variable {F : Type} [Arith F]

/-- The computation of one output column as a resumable program: `begin n` reads the inputs
for column `n` (observation point, delay) and gives the local state to begin with, and a micro
step that performs at most one access to the output matrix.  A micro step either
continues with a new local state or ends with the `SIRError` the serial function returns. -/
structure Task (F L : Type) where
  begin : Nat → Outcome L
  micro : Nat → L → Buf F → Outcome (Buf F × (L ⊕ SIRError))

/-- Program counter of a worker, src/dreamrect.cc 105-158. -/
inductive PC (L : Type)
  | fetch               -- loop head `n<stop`, reading of the observation point, 105-115
  | run (l : L)         -- inside the call of the serial function, 128-142
  | signal (e : SIRError)  -- 144-150: the call has returned `e`
  | check               -- 152-157: `if (!running) return`
  | done                -- returned

/-- One worker: `n` and `stop` are the loop variables, `err` is `D->err`.  When the worker
returns at 156 the dead variable `n` counts the finished column. -/
structure Worker (L : Type) where
  n : Nat
  stop : Nat
  pc : PC L
  err : SIRError

/-- The whole process: output matrix, atomic flag, workers. -/
structure Sys (F L : Type) where
  mem : Buf F
  running : Bool
  ws : Nat → Worker L

/-- Scheduler choices: let worker `w` take its next micro step, or run the signal handler
`abort` (src/dreamrect.cc 40-43). -/
inductive Act
  | step (w : Nat)
  | abort
  deriving DecidableEq

variable {L : Type}

/-- Replace worker `w`. -/
def Sys.setW (s : Sys F L) (w : Nat) (x : Worker L) : Sys F L :=
  { s with ws := fun v => if v = w then x else s.ws v }

/-- One micro step of worker `w`, src/dreamrect.cc 79-161. -/
def stepWorker (t : Task F L) (w : Nat) (s : Sys F L) : Outcome (Sys F L) :=
  let x := s.ws w
  match x.pc with
  | .done => .ok s
  | .fetch =>
    if x.n < x.stop then
      (t.begin x.n).bind fun l => .ok (s.setW w { x with pc := .run l })
    else .ok (s.setW w { x with pc := .done })
  | .run l =>
    (t.micro x.n l s.mem).bind fun (m, r) =>
      match r with
      | .inl l' => .ok ({ s with mem := m }.setW w { x with pc := .run l' })
      | .inr e =>
        .ok ({ s with mem := m }.setW w
          { x with pc := .signal e, err := if e = SIRError.none then x.err else e })
  | .signal e =>
    .ok ({ s with running := if e = SIRError.outOfBounds then false else s.running }.setW w
      { x with pc := .check })
  | .check =>
    if s.running then .ok (s.setW w { x with n := x.n + 1, pc := .fetch })
    else .ok (s.setW w { x with n := x.n + 1, pc := .done })

/-- One scheduler action. -/
def stepSys (t : Task F L) (a : Act) (s : Sys F L) : Outcome (Sys F L) :=
  match a with
  | .step w => stepWorker t w s
  | .abort => .ok { s with running := false }

/-- A schedule. -/
def exec (t : Task F L) : List Act → Sys F L → Outcome (Sys F L)
  | [], s => .ok s
  | a :: as, s => (stepSys t a s).bind (exec t as)

/-- State after the driver has set `running = true` and created the workers,
src/dreamrect.cc 180, 222-251.  Workers `≥ nth` do not exist (they are `done` from the
start). -/
def initSys (No nth : Nat) (m : Buf F) : Sys F L where
  mem := m
  running := true
  ws := fun w =>
    if w < nth then
      { n := rangeStart No nth w, stop := rangeStop No nth w, pc := .fetch, err := .none }
    else { n := 0, stop := 0, pc := .done, err := .none }

/-- Worker `w` has returned. -/
def Sys.isDone (s : Sys F L) (w : Nat) : Prop :=
  match (s.ws w).pc with
  | .done => True
  | _ => False

/-- All workers have returned, so the driver gets past `join`. -/
def Sys.allDone (s : Sys F L) (nth : Nat) : Prop := ∀ w, w < nth → s.isDone w

/-- Join loop, src/dreamrect.cc 254-263: with more than one worker the last non-`none` error
wins; with one worker nothing is collected. -/
def joinErr (nth : Nat) (err : Nat → SIRError) : SIRError :=
  if nth > 1 then
    (List.range nth).foldl (fun e w => if err w ≠ .none then err w else e) .none
  else .none

/-- Join loop of the spherical driver, src/dreamsphere.cc 252-262. -/
def joinErrSphere (nth : Nat) (err : Nat → SIRError) : SIRError :=
  if nth > 1 then
    (List.range nth).foldl
      (fun e w => if e = .outOfBounds ∨ err w = .outOfBounds then .outOfBounds else e) .none
  else .none

/-! ### The column a task computes when run alone -/

/-- The effect of a micro step on the column of the task. -/
abbrev ColProg (F L : Type) := Nat → L → (Nat → F) → Outcome ((Nat → F) × (L ⊕ SIRError))

/-- `t` works on column `n` (entries `base n .. base n + len - 1`) only; `mic` is its effect on
that column. -/
structure Task.Local (t : Task F L) (base : Nat → Nat) (len : Nat) (mic : ColProg F L) :
    Prop where
  lift : ∀ n l (m : Buf F) c' r, base n + len ≤ m.size →
    mic n l (m.getCol (base n) len) = .ok (c', r) →
    t.micro n l m = .ok (m.setCol (base n) len c', r)
  pad : ∀ n l c c' r, mic n l c = .ok (c', r) → (∀ i, len ≤ i → c i = lit 0) →
    ∀ i, len ≤ i → c' i = lit 0

/-- `Evals mic n k l c r`: the column program run alone from local state `l` on column content
`c` ends after exactly `k` micro steps with column content `r.1`, returning `r.2`. -/
inductive Evals (mic : ColProg F L) (n : Nat) :
    Nat → L → (Nat → F) → (Nat → F) × SIRError → Prop
  | last {l c c' e} : mic n l c = .ok (c', .inr e) → Evals mic n 1 l c (c', e)
  | more {k l c c' l' r} : mic n l c = .ok (c', .inl l') → Evals mic n k l' c' r →
      Evals mic n (k + 1) l c r

/-- Micro steps `l → ... → l'` of the column program, `k` of them, none of them the last. -/
inductive Steps (mic : ColProg F L) (n : Nat) :
    Nat → L → (Nat → F) → L → (Nat → F) → Prop
  | refl {l c} : Steps mic n 0 l c l c
  | more {k l c c' l' l'' c''} : mic n l c = .ok (c', .inl l') → Steps mic n k l' c' l'' c'' →
      Steps mic n (k + 1) l c l'' c''

omit [Arith F] in
theorem Steps.evals {mic : ColProg F L} {n j k : Nat} {l l' : L} {c c' : Nat → F} {r}
    (h : Steps mic n j l c l' c') (h' : Evals mic n k l' c' r) : Evals mic n (j + k) l c r := by
  induction h with
  | refl => simpa using h'
  | more h1 _ ih => rw [Nat.add_right_comm]; exact .more h1 (ih h')

omit [Arith F] in
theorem Steps.trans {mic : ColProg F L} {n j k : Nat} {l l' l'' : L} {c c' c'' : Nat → F}
    (h : Steps mic n j l c l' c') (h' : Steps mic n k l' c' l'' c'') :
    Steps mic n (j + k) l c l'' c'' := by
  induction h with
  | refl => simpa using h'
  | more h1 _ ih => rw [Nat.add_right_comm]; exact .more h1 (ih h')

omit [Arith F] in
/-- Running the column program alone is deterministic. -/
theorem Evals.det {mic : ColProg F L} {n k k' : Nat} {l : L} {c : Nat → F} {r r'}
    (h : Evals mic n k l c r) (h' : Evals mic n k' l c r') : r = r' ∧ k = k' := by
  induction h generalizing k' r' with
  | last h1 =>
    cases h' with
    | last h2 => rw [h1] at h2; simp at h2; simp [h2]
    | more h2 _ => rw [h1] at h2; simp at h2
  | more h1 _ ih =>
    cases h' with
    | last h2 => rw [h1] at h2; simp at h2
    | more h2 h3 =>
      rw [h1] at h2
      simp only [Outcome.ok.injEq, Prod.mk.injEq, Sum.inl.injEq] at h2
      obtain ⟨rfl, rfl⟩ := h2
      have := ih h3
      exact ⟨this.1, by omega⟩

/-! ### Programs given by their memory effects -/

/-- What one micro step does, relative to the start of the column. -/
inductive Eff (F L : Type)
  | tau (l : L)                      -- thread-local step
  | ret (e : SIRError)               -- the serial function returns
  | bad (e : UB)                     -- undefined behaviour
  | rd (j : Int) (k : F → L)         -- read `h[j]`
  | wr (j : Int) (x : F) (l : L)     -- write `h[j] = x`

/-- Perform an effect on the matrix with the column starting at `base`. -/
def Eff.onBuf (base : Nat) (m : Buf F) : Eff F L → Outcome (Buf F × (L ⊕ SIRError))
  | .tau l => .ok (m, .inl l)
  | .ret e => .ok (m, .inr e)
  | .bad e => .ub e
  | .rd j k => (m.read ((base : Int) + j)).bind fun x => .ok (m, .inl (k x))
  | .wr j x l => (m.write ((base : Int) + j) x).bind fun m' => .ok (m', .inl l)

/-- Perform an effect on a column of length `len`. -/
def Eff.onCol (len : Nat) (c : Nat → F) : Eff F L → Outcome ((Nat → F) × (L ⊕ SIRError))
  | .tau l => .ok (c, .inl l)
  | .ret e => .ok (c, .inr e)
  | .bad e => .ub e
  | .rd j k => if 0 ≤ j ∧ j < (len : Int) then .ok (c, .inl (k (c j.toNat))) else .ub .oob
  | .wr j x l =>
    if 0 ≤ j ∧ j < (len : Int) then
      .ok ((fun i => if i = j.toNat then x else c i), .inl l) else .ub .oob

/-- The task of a program. -/
def effTask (begin : Nat → Outcome L) (step : Nat → L → Eff F L) (base : Nat → Nat) :
    Task F L where
  begin := begin
  micro := fun n l m => (step n l).onBuf (base n) m

/-- The column program of a program. -/
def effCol (step : Nat → L → Eff F L) (len : Nat) : ColProg F L :=
  fun n l c => (step n l).onCol len c

theorem effTask_local (begin : Nat → Outcome L) (step : Nat → L → Eff F L) (base : Nat → Nat)
    (len : Nat) : (effTask begin step base).Local base len (effCol step len) where
  lift := by
    intro n l m c' r hb h
    simp only [effCol] at h
    simp only [effTask]
    have hget := Buf.setCol_getCol m (base n) len
    cases hs : step n l with
    | tau l' =>
      rw [hs] at h; simp only [Eff.onCol, Outcome.ok.injEq, Prod.mk.injEq] at h
      obtain ⟨rfl, rfl⟩ := h
      simp [Eff.onBuf, hget]
    | ret e =>
      rw [hs] at h; simp only [Eff.onCol, Outcome.ok.injEq, Prod.mk.injEq] at h
      obtain ⟨rfl, rfl⟩ := h
      simp [Eff.onBuf, hget]
    | bad e => rw [hs] at h; simp [Eff.onCol] at h
    | rd j k =>
      rw [hs] at h
      simp only [Eff.onCol] at h
      split at h
      · next hj =>
        simp only [Outcome.ok.injEq, Prod.mk.injEq] at h
        obtain ⟨rfl, rfl⟩ := h
        simp only [Eff.onBuf, Buf.read]
        rw [if_pos (by omega)]
        simp only [Outcome.bind, hget]
        have h1 : (m.getCol (base n) len) j.toNat = m.data (base n + j.toNat) := by
          simp only [Buf.getCol]; rw [if_pos (by omega)]
        have h2 : ((base n : Int) + j).toNat = base n + j.toNat := by omega
        rw [h1, h2]
      · simp at h
    | wr j x l' =>
      rw [hs] at h
      simp only [Eff.onCol] at h
      split at h
      · next hj =>
        simp only [Outcome.ok.injEq, Prod.mk.injEq] at h
        obtain ⟨rfl, rfl⟩ := h
        simp only [Eff.onBuf, Buf.write]
        rw [if_pos (by omega)]
        simp only [Outcome.bind, Buf.setCol]
        congr 3
        funext i
        have h2 : ((base n : Int) + j).toNat = base n + j.toNat := by omega
        rw [h2]
        by_cases hi : base n ≤ i ∧ i < base n + len
        · rw [if_pos hi]
          by_cases h3 : i = base n + j.toNat
          · rw [if_pos h3, if_pos (by omega)]
          · rw [if_neg h3, if_neg (by omega)]
            simp only [Buf.getCol]
            rw [if_pos (by omega)]
            congr 1; omega
        · rw [if_neg hi, if_neg (by omega)]
      · simp at h
  pad := by
    intro n l c c' r h hc
    simp only [effCol] at h
    cases hs : step n l with
    | tau l' => rw [hs] at h; simp only [Eff.onCol, Outcome.ok.injEq, Prod.mk.injEq] at h
                rw [← h.1]; exact hc
    | ret e => rw [hs] at h; simp only [Eff.onCol, Outcome.ok.injEq, Prod.mk.injEq] at h
               rw [← h.1]; exact hc
    | bad e => rw [hs] at h; simp [Eff.onCol] at h
    | rd j k =>
      rw [hs] at h; simp only [Eff.onCol] at h
      split at h
      · simp only [Outcome.ok.injEq, Prod.mk.injEq] at h
        rw [← h.1]; exact hc
      · simp at h
    | wr j x l' =>
      rw [hs] at h; simp only [Eff.onCol] at h
      split at h
      · next hj =>
        simp only [Outcome.ok.injEq, Prod.mk.injEq] at h
        intro i hi
        rw [← h.1]
        simp only
        rw [if_neg (by omega)]
        exact hc i hi
      · simp at h

end Dream
