import Verif.Mach
import Verif.Toy
import Verif.ClaimsThreads

/-
C84: index arithmetic does not overflow for matrices that fit into memory, and what happens if it does.
-/

namespace Dream
open Arith

variable {F : Type} [Arith F] {L : Type}

theorem IdxTy.norm_ok (ty : IdxTy) {v : Nat} (h : v < 2 ^ 63) : ty.norm v = .ok v := by
  cases ty with
  | signed => simp only [IdxTy.norm]; rw [if_pos h]
  | unsigned => simp only [IdxTy.norm]; rw [Nat.mod_eq_of_lt (by omega)]

theorem machStart_ok (ty : IdxTy) (No nth k : Nat) (hk : k ≤ nth) (h : nth * No < 2 ^ 63) :
    machStart ty No nth k = .ok (rangeStart No nth k) := by
  have : k * No ≤ nth * No := Nat.mul_le_mul_right _ hk
  simp only [machStart]
  rw [ty.norm_ok (by omega)]
  rfl

theorem machStop_ok (ty : IdxTy) (No nth k : Nat) (hk : k < nth) (h : nth * No < 2 ^ 63)
    (hn : nth < 2 ^ 63) : machStop ty No nth k = .ok (rangeStop No nth k) := by
  have : (k + 1) * No ≤ nth * No := Nat.mul_le_mul_right _ hk
  simp only [machStop]
  rw [ty.norm_ok (by omega)]
  simp only [Outcome.bind]
  rw [ty.norm_ok (by omega)]
  rfl

/-- C84: if the product of the number of columns and the number of workers is below 2^63, every worker
gets the range it is meant to get. -/
theorem C84_ranges (ty : IdxTy) (No nth : Nat) (m : Buf F) (h : nth * No < 2 ^ 63) (hn : nth < 2 ^ 63) :
    machInit ty No nth m = .ok (initSys No nth m : Sys F L) := by
  have key : ∀ k, k ≤ nth → machWorkers (L := L) ty No nth k = .ok (fun w =>
      if w < k then
        { n := rangeStart No nth w, stop := rangeStop No nth w, pc := .fetch, err := .none }
      else { n := 0, stop := 0, pc := .done, err := .none }) := by
    intro k
    induction k with
    | zero => intro _; simp [machWorkers]
    | succ k ih =>
      intro hk
      simp only [machWorkers]
      rw [ih (by omega)]
      simp only [Outcome.bind]
      rw [machStart_ok ty No nth k (by omega) h]
      simp only
      rw [machStop_ok ty No nth k (by omega) h hn]
      simp only [Outcome.ok.injEq]
      funext w
      by_cases hw : w = k
      · subst hw; rw [if_pos rfl, if_pos (by omega)]
      · rw [if_neg hw]
        by_cases hwk : w < k
        · rw [if_pos hwk, if_pos (by omega)]
        · rw [if_neg hwk, if_neg (by omega)]
  unfold machInit
  rw [key nth (Nat.le_refl _)]
  rfl

/-- What the workers can be at. -/
def Sane (No : Nat) (s : Sys F L) : Prop :=
  ∀ w, (s.ws w).stop ≤ No ∧ match (s.ws w).pc with
    | .run _ => (s.ws w).n < No
    | _ => True

theorem sane_init (No nth : Nat) (m : Buf F) : Sane No (initSys No nth m : Sys F L) := by
  intro w
  simp only [initSys]
  split
  · next h =>
    refine ⟨?_, trivial⟩
    have := rangeStart_le No nth (w + 1) (by omega) (by omega)
    rwa [← rangeStop_eq] at this
  · exact ⟨Nat.zero_le _, trivial⟩

/-- Two programs that do the same for the columns that exist take the same steps. -/
theorem stepWorker_same {t u : Task F L} {No : Nat} (hb : ∀ n, n < No → t.begin n = u.begin n)
    (hm : ∀ n l b, n < No → t.micro n l b = u.micro n l b) (w : Nat) (s : Sys F L) (h : Sane No s) :
    stepWorker t w s = stepWorker u w s ∧ ∀ s', stepWorker u w s = .ok s' → Sane No s' := by
  have set : ∀ (s1 : Sys F L) (x : Worker L), s1.ws = s.ws → x.stop ≤ No →
      (match x.pc with | .run _ => x.n < No | _ => True) → Sane No (s1.setW w x) := by
    intro s1 x hs h1 h2 v
    simp only [Sys.setW]
    split
    · exact ⟨h1, h2⟩
    · rw [hs]; exact h v
  have hw := h w
  unfold stepWorker
  generalize s.ws w = x at hw ⊢
  obtain ⟨n, stop, pc, err⟩ := x
  simp only at hw ⊢
  cases pc with
  | done => exact ⟨rfl, fun s' h' => by simp only [Outcome.ok.injEq] at h'; exact h' ▸ h⟩
  | fetch =>
    simp only
    by_cases hn : n < stop
    · rw [if_pos hn, if_pos hn, hb n (by omega)]
      refine ⟨rfl, fun s' h' => ?_⟩
      cases hu : u.begin n with
      | ub e => rw [hu] at h'; simp [Outcome.bind] at h'
      | fuel => rw [hu] at h'; simp [Outcome.bind] at h'
      | ok l =>
        rw [hu] at h'
        simp only [Outcome.bind, Outcome.ok.injEq] at h'
        subst h'
        exact set s _ rfl hw.1 (by simp only; omega)
    · rw [if_neg hn, if_neg hn]
      refine ⟨rfl, fun s' h' => ?_⟩
      simp only [Outcome.ok.injEq] at h'
      subst h'
      exact set s _ rfl hw.1 trivial
  | run l =>
    simp only at hw ⊢
    rw [hm n l s.mem hw.2]
    refine ⟨rfl, fun s' h' => ?_⟩
    cases hu : u.micro n l s.mem with
    | ub e => rw [hu] at h'; simp [Outcome.bind] at h'
    | fuel => rw [hu] at h'; simp [Outcome.bind] at h'
    | ok q =>
      obtain ⟨m', r⟩ := q
      rw [hu] at h'
      cases r with
      | inl l' =>
        simp only [Outcome.bind, Outcome.ok.injEq] at h'
        subst h'
        exact set { s with mem := m' } _ rfl hw.1 hw.2
      | inr e =>
        simp only [Outcome.bind, Outcome.ok.injEq] at h'
        subst h'
        exact set { s with mem := m' } _ rfl hw.1 trivial
  | signal e =>
    refine ⟨rfl, fun s' h' => ?_⟩
    simp only [Outcome.ok.injEq] at h'
    subst h'
    exact set { s with running := _ } _ rfl hw.1 trivial
  | check =>
    refine ⟨rfl, fun s' h' => ?_⟩
    simp only at h'
    split at h' <;> simp only [Outcome.ok.injEq] at h' <;> subst h' <;> exact set s _ rfl hw.1 trivial

theorem exec_same {t u : Task F L} {No : Nat} (hb : ∀ n, n < No → t.begin n = u.begin n)
    (hm : ∀ n l b, n < No → t.micro n l b = u.micro n l b) (as : List Act) (s : Sys F L)
    (h : Sane No s) : exec t as s = exec u as s := by
  induction as generalizing s with
  | nil => rfl
  | cons a as ih =>
    simp only [exec]
    cases a with
    | abort => exact ih _ h
    | step w =>
      simp only [stepSys]
      obtain ⟨h1, h2⟩ := stepWorker_same hb hm w s h
      rw [h1]
      cases hs : stepWorker u w s with
      | ub e => rfl
      | fuel => rfl
      | ok s' => simp only [Outcome.bind]; exact ih s' (h2 s' hs)

theorem machInputs_ok (ty : IdxTy) (No : Nat) (Ro : Buf F) (dt : DelayType) (delay : Buf F) (n : Nat)
    (hn : n < No) (h : 3 * No < 2 ^ 63) :
    machInputs ty No Ro dt delay n =
      ((Ro.read (n : Int)).bind fun xo =>
       (Ro.read ((n + 1 * No : Nat) : Int)).bind fun yo =>
       (Ro.read ((n + 2 * No : Nat) : Int)).bind fun zo =>
       (delay.read (match dt with | .single => 0 | .multiple => (n : Int))).bind fun d =>
       .ok (xo, yo, zo, d)) := by
  unfold machInputs
  rw [ty.norm_ok (v := 1 * No) (by omega), ty.norm_ok (v := 2 * No) (by omega)]
  simp only [Outcome.bind]
  rw [ty.norm_ok (v := n + 1 * No) (by omega), ty.norm_ok (v := n + 2 * No) (by omega)]
  cases Ro.read (n : Int) with
  | ub e => rfl
  | fuel => rfl
  | ok a =>
    simp only
    cases Ro.read ((n + 1 * No : Nat) : Int) with
    | ub e => rfl
    | fuel => rfl
    | ok b => rfl

/-- The worker program with machine arithmetic is the worker program when every index fits. -/
theorem machTask_micro (ty : IdxTy) (b : Nat → Outcome L) (step : Nat → L → Eff F L) (No len : Nat)
    (h : No * len < 2 ^ 63) (n : Nat) (l : L) (m : Buf F) (hn : n < No) :
    (machTask ty b step len).micro n l m = (effTask b step (fun n => n * len)).micro n l m := by
  have : n * len ≤ No * len := Nat.mul_le_mul_right _ (by omega)
  simp only [machTask, effTask]
  rw [ty.norm_ok (by omega)]
  rfl

/-- The matrices of a call fit into an address space of `2^b` bytes: points (three doubles each) and
responses. -/
structure FitsMemory (No nt b : Nat) : Prop where
  points : 8 * (3 * No) < 2 ^ b
  out : 8 * (No * nt) < 2 ^ b

/-- C84: for the single-element functions, if the matrices fit into memory (objects are smaller than
2^63 bytes) and there are at most 24 workers, no index computation overflows: every execution with
machine arithmetic is the execution with exact indices. -/
theorem C84_sir (D : SirCall F) (hm : FitsMemory D.No D.nt 63) (m : Buf F) (nth : Nat) (hn : nth ≤ 24)
    (as : List Act) :
    ((machInit D.ty D.No nth m).bind fun s => exec D.machTask as s) =
      exec D.task as (initSys D.No nth m) := by
  have h1 := hm.points
  have h2 := hm.out
  have h3 : nth * D.No ≤ 24 * D.No := Nat.mul_le_mul_right _ hn
  rw [C84_ranges D.ty D.No nth m (by omega) (by omega)]
  refine exec_same (No := D.No) ?_ ?_ as _ (sane_init _ _ _)
  · intro n hn
    show Outcome.map _ (machInputs D.ty D.No D.Ro D.delayType D.delay n) = Outcome.map _ (D.inputs n)
    rw [machInputs_ok _ _ _ _ _ n hn (by omega)]
    rfl
  · intro n l b hn
    exact machTask_micro D.ty _ _ D.No D.nt (by omega) n l b hn

/-- C84 for the array functions. -/
theorem C84_arr (D : ArrCall F) (hm : FitsMemory D.No D.nt 63) (m : Buf F) (nth : Nat) (hn : nth ≤ 24)
    (as : List Act) :
    ((machInit D.ty D.No nth m).bind fun s => exec D.machTask as s) =
      exec D.task as (initSys D.No nth m) := by
  have h1 := hm.points
  have h2 := hm.out
  have h3 : nth * D.No ≤ 24 * D.No := Nat.mul_le_mul_right _ hn
  rw [C84_ranges D.ty D.No nth m (by omega) (by omega)]
  refine exec_same (No := D.No) ?_ ?_ as _ (sane_init _ _ _)
  · intro n hn
    show Outcome.map _ (machInputs D.ty D.No D.Ro D.delayType D.delay n) = Outcome.map _ (D.inputs n)
    rw [machInputs_ok _ _ _ _ _ n hn (by omega)]
    rfl
  · intro n l b hn
    exact machTask_micro D.ty _ _ D.No D.nt (by omega) n l b hn

/-- C84: in the address space of current 64-bit processors (2^48 bytes) more than half a million workers
are safe. -/
theorem C84_48bit (D : SirCall F) (hm : FitsMemory D.No D.nt 48) (m : Buf F) (nth : Nat)
    (hn : nth ≤ 2 ^ 19) (as : List Act) :
    ((machInit D.ty D.No nth m).bind fun s => exec D.machTask as s) =
      exec D.task as (initSys D.No nth m) := by
  have h1 := hm.points
  have h2 := hm.out
  have h3 : nth * D.No ≤ 2 ^ 19 * D.No := Nat.mul_le_mul_right _ hn
  rw [C84_ranges D.ty D.No nth m (by omega) (by omega)]
  refine exec_same (No := D.No) ?_ ?_ as _ (sane_init _ _ _)
  · intro n hn
    show Outcome.map _ (machInputs D.ty D.No D.Ro D.delayType D.delay n) = Outcome.map _ (D.inputs n)
    rw [machInputs_ok _ _ _ _ _ n hn (by omega)]
    rfl
  · intro n l b hn
    exact machTask_micro D.ty _ _ D.No D.nt (by omega) n l b hn

/-! ### Beyond the limit -/

theorem machStart_ne_fuel (No nth k : Nat) : machStart .signed No nth k ≠ .fuel := by
  unfold machStart IdxTy.norm
  by_cases h : k * No < 2 ^ 63
  · simp only [if_pos h, Outcome.map]; simp
  · simp only [if_neg h, Outcome.map]; simp

theorem machStop_ne_fuel (No nth k : Nat) : machStop .signed No nth k ≠ .fuel := by
  unfold machStop IdxTy.norm
  by_cases h : k + 1 < 2 ^ 63
  · simp only [if_pos h, Outcome.bind]
    by_cases h' : (k + 1) * No < 2 ^ 63
    · simp only [if_pos h', Outcome.map]; simp
    · simp only [if_neg h', Outcome.map]; simp
  · simp only [if_neg h, Outcome.bind]; simp

/-- C84 (violation beyond the limit): in Octave and Python a call is undefined as soon as the product of
columns and workers is 2^63 or more. -/
theorem C84_signed_overflow (No nth : Nat) (m : Buf F) (h1 : 1 ≤ nth) (h : 2 ^ 63 ≤ nth * No) :
    ∃ e, machInit (L := L) .signed No nth m = .ub e := by
  have hb : ∀ k, machWorkers (L := L) .signed No nth k ≠ .fuel := by
    intro k
    induction k with
    | zero => simp [machWorkers]
    | succ k ih =>
      simp only [machWorkers]
      cases hw : machWorkers (L := L) .signed No nth k with
      | fuel => exact absurd hw ih
      | ub e => simp [Outcome.bind]
      | ok ws =>
        simp only [Outcome.bind]
        cases ha : machStart .signed No nth k with
        | fuel => exact absurd ha (machStart_ne_fuel _ _ _)
        | ub e => simp
        | ok a =>
          simp only
          cases hs : machStop .signed No nth k with
          | fuel => exact absurd hs (machStop_ne_fuel _ _ _)
          | ub e => simp
          | ok b => simp
  obtain ⟨k, rfl⟩ : ∃ k, nth = k + 1 := ⟨nth - 1, by omega⟩
  have hstop : machStop .signed No (k + 1) k = .ub .cast := by
    simp only [machStop, IdxTy.norm]
    split
    · simp only [Outcome.bind]; rw [if_neg (by omega)]; rfl
    · rfl
  unfold machInit
  simp only [machWorkers]
  cases hw : machWorkers (L := L) .signed No (k + 1) k with
  | ub e => exact ⟨e, rfl⟩
  | fuel => exact absurd hw (hb k)
  | ok ws =>
    simp only [Outcome.bind, hstop]
    cases hs : machStart .signed No (k + 1) k with
    | ub e => exact ⟨e, rfl⟩
    | fuel => simp only [machStart, IdxTy.norm] at hs; split at hs <;> simp [Outcome.map] at hs
    | ok a => exact ⟨.cast, rfl⟩

/-- C84 (violation beyond the limit): in MATLAB and Julia the products wrap around: no worker gets a
column at or beyond 2^64 divided by the number of workers, so with 2^64 or more as product of columns
and workers the last column is computed by no worker. -/
theorem C84_unsigned_wraps (No nth : Nat) (m : Buf F) (h1 : 1 ≤ nth) (h : 2 ^ 64 ≤ nth * No) :
    ∃ s : Sys F L, machInit .unsigned No nth m = .ok s ∧ ∀ w, (s.ws w).stop < No := by
  have hNo : 1 ≤ No := by
    rcases Nat.eq_zero_or_pos No with h0 | h0
    · subst h0; simp at h
    · exact h0
  have hlt : ∀ v, v % 2 ^ 64 / nth < No := by
    intro v
    rw [Nat.div_lt_iff_lt_mul (by omega), Nat.mul_comm]
    exact Nat.lt_of_lt_of_le (Nat.mod_lt _ (by omega)) h
  have key : ∀ k, ∃ ws : Nat → Worker L, machWorkers .unsigned No nth k = .ok ws ∧
      ∀ w, (ws w).stop < No := by
    intro k
    induction k with
    | zero => exact ⟨_, rfl, fun w => hNo⟩
    | succ k ih =>
      obtain ⟨ws, e, hws⟩ := ih
      refine ⟨fun w => if w = k then ⟨k * No % 2 ^ 64 / nth, (k + 1) % 2 ^ 64 * No % 2 ^ 64 / nth,
        .fetch, .none⟩ else ws w, ?_, ?_⟩
      · simp only [machWorkers, e, Outcome.bind, machStart, machStop, IdxTy.norm, Outcome.map]
      · intro w
        simp only
        split
        · exact hlt _
        · exact hws w
  obtain ⟨ws, e, hws⟩ := key nth
  exact ⟨⟨m, true, ws⟩, by simp only [machInit, e, Outcome.map], hws⟩

/-! ### The hypotheses can be met -/

section Examples
attribute [local instance] toyArith

example : FitsMemory (toyCall .stop).No (toyCall .stop).nt 63 ∧
    FitsMemory (toyCall .stop).No (toyCall .stop).nt 48 := ⟨⟨by decide, by decide⟩, ⟨by decide, by decide⟩⟩

-- two columns and 2^62 workers
example : ∃ e, machInit (F := Int) (L := KLoc Int) .signed 2 (2 ^ 62) toyOut = .ub e :=
  C84_signed_overflow 2 (2 ^ 62) toyOut (by decide) (by decide)

end Examples

end Dream
