import Verif.Prog
import Verif.KernelCol

/-
The OpenCL kernels opencl/dreamrect.cl and opencl/dreamcirc.cl, written here on their own (they do
not share the loops of `Verif.Kernel`), and the launch of a grid of work-items on a device.
-/

namespace Dream
open Arith

variable {F : Type} [Arith F]

/-- Result of 32-bit `int` arithmetic: undefined when it does not fit (the model uses the tag
`cast`, "not representable", for signed overflow too). -/
def int32 (i : Int) : Outcome Int :=
  if i.natAbs < 2147483648 ∨ i = -2147483648 then .ok i else .ub .cast

/-- `(int) x` of OpenCL C for a floating point `x` with the given integral value. -/
def castInt : Option Int → Outcome Int
  | some i => int32 i
  | none => .ub .cast

/-- Arguments of the kernels `dreamrect` and `dreamcirc` that all work-items share,
opencl/dreamrect.cl 1-12, opencl/dreamcirc.cl 1-11. -/
structure ClArgs (F : Type) where
  Ro : Buf F
  No : Nat
  dx : F
  dy : F
  dt : F
  nt : Nat
  delay : F
  v : F
  cp : F

/-- `Ro[no]`, `Ro[no + No*1]`, `Ro[no + No*2]` with `int` index arithmetic,
opencl/dreamrect.cl 14-17, opencl/dreamcirc.cl 13-16. -/
def ClArgs.point (A : ClArgs F) (no : Nat) : Outcome (F × F × F) :=
  (A.Ro.read (no : Int)).bind fun x =>
  (int32 ((no : Int) + A.No * 1)).bind fun i => (A.Ro.read i).bind fun y =>
  (int32 ((no : Int) + A.No * 2)).bind fun i => (A.Ro.read i).bind fun z =>
  .ok (x, y, z)

/-- `for (int i = 0; i < nt; i++) h[i] = 0.0;`, opencl/dreamrect.cl 20-22, opencl/dreamcirc.cl
19-21. -/
def clClear (nt : Nat) : Prog F Unit :=
  Prog.forN (fun i _ => .wr (i : Int) (lit 0) (.ret ())) nt 0 ()

/-- Body of the inner loop: opencl/dreamrect.cl 41-56, opencl/dreamcirc.cl 41-57. -/
def clBody (A : ClArgs F) (xo ry zo ds xs : F) : Prog F Unit :=
  let rx := xo -. xs
  let r := sqrt (rx *. rx +. ry *. ry +. zo *. zo)
  let ai := A.v *. ds /. (lit 2 *. pi *. r)
  let ai := ai /. A.dt
  let ai := ai *. lit 1000
  let t := r *. lit 1000 /. A.cp
  (Prog.lift (castInt (rint ((t -. A.delay) /. A.dt)))).bind fun it =>
  if it < (A.nt : Int) ∧ it ≥ 0 then
    .rd it fun z => .wr it (z +. ai) (.ret ())
  else .ret ()

/-- `while (xs <= xsmax) { ...; xs += dx; }`, opencl/dreamrect.cl 39-59, opencl/dreamcirc.cl 36-60. -/
def clInner (A : ClArgs F) (xo ry zo ds xsmax : F) : Nat → F → Prog F Unit
  | 0, _ => .spin
  | n + 1, xs =>
    if le xs xsmax then
      (clBody A xo ry zo ds xs).bind fun _ => clInner A xo ry zo ds xsmax n (xs +. A.dx)
    else .ret ()

/-- `while (ys <= ysmax)` of opencl/dreamrect.cl 34-61. -/
def clRectOuter (A : ClArgs F) (a xo yo zo ysmax : F) (fuel : Nat) : Nat → F → Prog F Unit
  | 0, _ => .spin
  | n + 1, ys =>
    if le ys ysmax then
      (clInner A xo (yo -. ys) zo (A.dx *. A.dy) (a /. lit 2) fuel
        (neg a /. lit 2 +. A.dx /. lit 2)).bind fun _ =>
      clRectOuter A a xo yo zo ysmax fuel n (ys +. A.dy)
    else .ret ()

/-- `while (ys <= ysmax)` of opencl/dreamcirc.cl 30-62. -/
def clCircOuter (A : ClArgs F) (R xo yo zo : F) (fuel : Nat) : Nat → F → Prog F Unit
  | 0, _ => .spin
  | n + 1, ys =>
    if le ys R then
      let rxs := sqrt (R *. R -. ys *. ys)
      (clInner A xo (yo -. ys) zo (A.dx *. A.dy) rxs fuel
        (neg rxs +. A.dx /. lit 2)).bind fun _ =>
      clCircOuter A R xo yo zo fuel n (ys +. A.dy)
    else .ret ()

/-- Work-item `no` of kernel `dreamrect`, opencl/dreamrect.cl 1-60; `h = &H[0+nt*no]` with `int`
arithmetic.  `fuel` bounds the passes of each loop; a work-item that needs more spins. -/
def clRect (A : ClArgs F) (a b : F) (fuel no : Nat) : Prog F Unit :=
  (Prog.lift (A.point no)).bind fun (xo, yo, zo) =>
  (Prog.lift (int32 (0 + A.nt * no))).bind fun _ =>
  (clClear A.nt).bind fun _ =>
  clRectOuter A a xo yo zo (b /. lit 2) fuel fuel (neg b /. lit 2 +. A.dy /. lit 2)

/-- Work-item `no` of kernel `dreamcirc`, opencl/dreamcirc.cl 1-63. -/
def clCirc (A : ClArgs F) (R : F) (fuel no : Nat) : Prog F Unit :=
  (Prog.lift (A.point no)).bind fun (xo, yo, zo) =>
  (Prog.lift (int32 (0 + A.nt * no))).bind fun _ =>
  (clClear A.nt).bind fun _ =>
  clCircOuter A R xo yo zo fuel fuel (neg R +. A.dy /. lit 2)

/-! ### The device

A launch runs one program per work-item on shared memory; the device may interleave them
memory access by memory access in any order.  Work-item `i` sees its memory through the pointer
`&mem[len*i]`. -/

/-- State of the device during a launch. -/
structure Dev (F : Type) where
  mem : Buf F
  item : Nat → Prog F Unit

/-- Work-item `i` makes one memory access. -/
def Dev.step (len : Nat) (d : Dev F) (i : Nat) : Outcome (Dev F) :=
  match d.item i with
  | .ret _ => .ok d
  | .spin => .ok d
  | .bad e => .ub e
  | .rd j k => (d.mem.read (((len * i : Nat) : Int) + j)).bind fun x =>
      .ok { d with item := fun q => if q = i then k x else d.item q }
  | .wr j x p => (d.mem.write (((len * i : Nat) : Int) + j) x).bind fun m =>
      .ok { mem := m, item := fun q => if q = i then p else d.item q }

/-- A schedule: which work-item moves next (numbers that are no work-item do nothing). -/
def Dev.run (len No : Nat) : List Nat → Dev F → Outcome (Dev F)
  | [], d => .ok d
  | i :: is, d => if i < No then (d.step len i).bind fun d' => Dev.run len No is d' else Dev.run len No is d

/-- All work-items have ended. -/
def Dev.Finished (No : Nat) (d : Dev F) : Prop := ∀ i, i < No → ∃ a, d.item i = .ret a

/-- `H` after `clEnqueueNDRangeKernel` with `No` work-items in groups of 64 and the blocking
`clEnqueueReadBuffer` of `nt*No` values, opencl/cl_dreamrect.cc 212-224, opencl/cl_dreamcirc.cc
205-217, opencl/cl_das.cc 125-146.  `fresh` is the content of the device buffer
(`clCreateBuffer` without host pointer: anything).  When `No` is no multiple of 64 the enqueue
call fails (OpenCL 1.2, `CL_INVALID_WORK_GROUP_SIZE`), only a message is printed, and the buffer
is read back as it is. -/
def Launched (len No : Nat) (item : Nat → Prog F Unit) (fresh H : Nat → F) : Prop :=
  if No % 64 = 0 then
    ∃ sched d, Dev.run len No sched { mem := { size := len * No, data := fresh }, item := item } = .ok d ∧
      d.Finished No ∧ ∀ i, i < len * No → H i = d.mem.data i
  else ∀ i, i < len * No → H i = fresh i

/-! ### Launches do not depend on the schedule -/

theorem col_sep (len i q : Nat) (h : q ≠ i) : len * i + len ≤ len * q ∨ len * q + len ≤ len * i := by
  rcases Nat.lt_or_ge i q with h1 | h1
  · left
    have := Nat.mul_le_mul_left len (show i + 1 ≤ q from h1)
    rw [Nat.mul_add, Nat.mul_one] at this
    exact this
  · right
    have := Nat.mul_le_mul_left len (show q + 1 ≤ i by omega)
    rw [Nat.mul_add, Nat.mul_one] at this
    exact this

theorem col_in (len No i : Nat) (h : i < No) : len * i + len ≤ len * No := by
  have := Nat.mul_le_mul_left len (show i + 1 ≤ No from h)
  rw [Nat.mul_add, Nat.mul_one] at this
  exact this

/-- Column `i` of the buffer as a function. -/
def Dev.col (len : Nat) (d : Dev F) (i : Nat) : Nat → F := fun j => d.mem.data (len * i + j)

omit [Arith F] in
theorem Dev.col_def (len : Nat) (d : Dev F) (i : Nat) :
    d.col len i = fun j => d.mem.data (len * i + j) := rfl

/-- Agreement of two columns on their `len` entries. -/
def ColEq (len : Nat) (c c' : Nat → F) : Prop := ∀ j, j < len → c j = c' j

/-- The same result, comparing columns on their `len` entries only. -/
def SameOut {α : Type} (len : Nat) (x y : Outcome ((Nat → F) × α)) : Prop :=
  match x, y with
  | .ok r, .ok r' => ColEq len r.1 r'.1 ∧ r.2 = r'.2
  | .ub e, .ub e' => e = e'
  | .fuel, .fuel => True
  | _, _ => False

omit [Arith F] in
theorem SameOut.refl {α : Type} (len : Nat) (x : Outcome ((Nat → F) × α)) : SameOut len x x := by
  cases x <;> simp [SameOut, ColEq]

omit [Arith F] in
theorem SameOut.trans {α : Type} {len : Nat} {x y z : Outcome ((Nat → F) × α)}
    (h1 : SameOut len x y) (h2 : SameOut len y z) : SameOut len x z := by
  cases x <;> cases y <;> simp [SameOut] at h1 <;> cases z <;> simp [SameOut] at h2 ⊢
  · exact ⟨fun j hj => (h1.1 j hj).trans (h2.1 j hj), h1.2.trans h2.2⟩
  · exact h1.trans h2

omit [Arith F] in
theorem runCol_congr {α : Type} (len : Nat) (p : Prog F α) (c c' : Nat → F) (h : ColEq len c c') :
    SameOut len (p.runCol len c) (p.runCol len c') := by
  induction p generalizing c c' with
  | ret a => exact ⟨h, rfl⟩
  | bad e => exact rfl
  | spin => exact trivial
  | rd j k ih =>
    simp only [Prog.runCol]
    by_cases hj : 0 ≤ j ∧ j < (len : Int)
    · rw [if_pos hj, if_pos hj, ← h j.toNat (by omega)]
      exact ih _ c c' h
    · rw [if_neg hj, if_neg hj]; exact rfl
  | wr j x p ih =>
    simp only [Prog.runCol]
    by_cases hj : 0 ≤ j ∧ j < (len : Int)
    · rw [if_pos hj, if_pos hj]
      refine ih _ _ ?_
      intro q hq
      simp only
      split
      · rfl
      · exact h q hq
    · rw [if_neg hj, if_neg hj]; exact rfl

/-- What every state of a launch satisfies: each work-item, run on from here on its own column,
would end with its result `v i`, which is no access outside the column. -/
def Dev.Inv (len No : Nat) (v : Nat → Outcome ((Nat → F) × Unit)) (d : Dev F) : Prop :=
  d.mem.size = len * No ∧
  ∀ i, i < No → SameOut len ((d.item i).runCol len (d.col len i)) (v i) ∧ v i ≠ .ub .oob

omit [Arith F] in
theorem Dev.inv_step (len No : Nat) (v : Nat → Outcome ((Nat → F) × Unit)) (d : Dev F)
    (h : d.Inv len No v) (i : Nat) (hi : i < No) :
    (∃ d', d.step len i = .ok d' ∧ d'.Inv len No v) ∨ ∃ e, d.step len i = .ub e ∧ v i = .ub e := by
  obtain ⟨hsz, hall⟩ := h
  obtain ⟨hc, hno⟩ := hall i hi
  have hin := col_in len No i hi
  unfold Dev.step
  match hp : d.item i with
  | .ret a => exact .inl ⟨d, by simp, hsz, hall⟩
  | .spin => exact .inl ⟨d, by simp, hsz, hall⟩
  | .bad e =>
    rw [hp] at hc
    refine .inr ⟨e, rfl, ?_⟩
    cases hv : v i <;> rw [hv] at hc <;> simp [SameOut, Prog.runCol] at hc
    rw [hc]
  | .rd j k =>
    rw [hp] at hc
    simp only [Prog.runCol] at hc
    split at hc
    · next hj =>
      have hrd : d.mem.read (((len * i : Nat) : Int) + j) = .ok (d.col len i j.toNat) := by
        unfold Buf.read
        rw [if_pos (by omega)]
        unfold Dev.col
        congr 2
        omega
      refine .inl ⟨{ d with item := fun q => if q = i then k (d.col len i j.toNat) else d.item q }, by
        simp only [hrd, Outcome.bind], hsz, ?_⟩
      intro q hq
      by_cases hqi : q = i
      · subst hqi
        exact ⟨by simpa [Dev.col_def] using hc, hno⟩
      · obtain ⟨h1, h2⟩ := hall q hq
        exact ⟨by simpa [Dev.col_def, if_neg hqi] using h1, h2⟩
    · cases hv : v i <;> rw [hv] at hc <;> simp [SameOut] at hc
      rw [hv, ← hc] at hno
      exact absurd rfl hno
  | .wr j x p =>
    rw [hp] at hc
    simp only [Prog.runCol] at hc
    split at hc
    · next hj =>
      have hw : d.mem.write (((len * i : Nat) : Int) + j) x =
          .ok ⟨d.mem.size, fun q =>
            if q = (((len * i : Nat) : Int) + j).toNat then x else d.mem.data q⟩ := by
        unfold Buf.write
        rw [if_pos (by omega)]
      refine .inl ⟨⟨⟨d.mem.size, fun q =>
            if q = (((len * i : Nat) : Int) + j).toNat then x else d.mem.data q⟩,
          fun q => if q = i then p else d.item q⟩, by simp only [hw, Outcome.bind], hsz, ?_⟩
      intro q hq
      have e : (((len * i : Nat) : Int) + j).toNat = len * i + j.toNat := by omega
      by_cases hqi : q = i
      · subst hqi
        refine ⟨?_, hno⟩
        have : (fun w => if w = j.toNat then x else d.col len q w) =
            fun w => if len * q + w = len * q + j.toNat then x else d.mem.data (len * q + w) := by
          funext w
          by_cases hw' : w = j.toNat
          · rw [if_pos hw', hw', if_pos rfl]
          · rw [if_neg hw', if_neg (by omega)]; rfl
        rw [this] at hc
        simpa only [Dev.col_def, if_true, e] using hc
      · obtain ⟨h1, h2⟩ := hall q hq
        have h3 := runCol_congr len (d.item q)
          (fun w => if len * q + w = len * i + j.toNat then x else d.mem.data (len * q + w))
          (d.col len q)
          (fun w hw => by
            have := col_sep len i q hqi
            simp only [Dev.col_def]
            rw [if_neg (by omega)])
        refine ⟨?_, h2⟩
        simp only [if_neg hqi, Dev.col_def, e]
        exact h3.trans h1
    · cases hv : v i <;> rw [hv] at hc <;> simp [SameOut] at hc
      rw [hv, ← hc] at hno
      exact absurd rfl hno

omit [Arith F] in
/-- Along every schedule the invariant holds, or a work-item with undefined behaviour has shown
it. -/
theorem Dev.run_spec (len No : Nat) (v : Nat → Outcome ((Nat → F) × Unit)) (sched : List Nat)
    (d : Dev F) (h : d.Inv len No v) :
    (∃ d', Dev.run len No sched d = .ok d' ∧ d'.Inv len No v) ∨
    ∃ i e, i < No ∧ Dev.run len No sched d = .ub e ∧ v i = .ub e := by
  induction sched generalizing d with
  | nil => exact .inl ⟨d, rfl, h⟩
  | cons i is ih =>
    simp only [Dev.run]
    by_cases hi : i < No
    · rw [if_pos hi]
      rcases d.inv_step len No v h i hi with ⟨d1, h1, h2⟩ | ⟨e, h1, h2⟩
      · rw [h1]; exact ih d1 h2
      · exact .inr ⟨i, e, hi, by rw [h1]; rfl, h2⟩
    · rw [if_neg hi]; exact ih d h

/-- The result of work-item `i` of a launch on its own. -/
def itemOut (len : Nat) (item : Nat → Prog F Unit) (fresh : Nat → F) (i : Nat) :
    Outcome ((Nat → F) × Unit) :=
  (item i).runCol len (fun j => fresh (len * i + j))

omit [Arith F] in
/-- After a completed launch of full groups whose work-items stay in their columns, every
work-item is defined and has left exactly its column. -/
theorem launched_columns (len No : Nat) (item : Nat → Prog F Unit) (fresh H : Nat → F)
    (hNo : No % 64 = 0) (hsafe : ∀ i, i < No → itemOut len item fresh i ≠ .ub .oob)
    (hl : Launched len No item fresh H) (i : Nat) (hi : i < No) :
    ∃ c, itemOut len item fresh i = .ok (c, ()) ∧ ∀ j, j < len → H (len * i + j) = c j := by
  unfold Launched at hl
  rw [if_pos hNo] at hl
  obtain ⟨sched, d, hrun, hfin, hH⟩ := hl
  rcases Dev.run_spec len No (itemOut len item fresh) sched
    { mem := { size := len * No, data := fresh }, item := item }
    ⟨rfl, fun i hi => ⟨SameOut.refl _ _, hsafe i hi⟩⟩ with ⟨d', h1, h2⟩ | ⟨_, _, _, h1, _⟩
  · rw [hrun] at h1
    cases h1
    obtain ⟨h3, _⟩ := h2.2 i hi
    obtain ⟨a, ha⟩ := hfin i hi
    rw [ha] at h3
    simp only [Prog.runCol] at h3
    have hin := col_in len No i hi
    cases hv : itemOut len item fresh i with
    | ok r =>
      rw [hv] at h3
      refine ⟨r.1, rfl, fun j hj => ?_⟩
      rw [hH _ (by omega), ← h3.1 j hj]
      rfl
    | ub e => rw [hv] at h3; exact absurd h3 (by simp [SameOut])
    | fuel => rw [hv] at h3; exact absurd h3 (by simp [SameOut])
  · rw [hrun] at h1; simp at h1

omit [Arith F] in
/-- A launch whose work-items are all defined never runs into undefined behaviour. -/
theorem launch_defined (len No : Nat) (item : Nat → Prog F Unit) (fresh : Nat → F)
    (hit : ∀ i, i < No → ∃ r, itemOut len item fresh i = .ok r) (sched : List Nat) :
    ∃ d, Dev.run len No sched { mem := { size := len * No, data := fresh }, item := item } = .ok d := by
  rcases Dev.run_spec len No (itemOut len item fresh) sched
    { mem := { size := len * No, data := fresh }, item := item }
    ⟨rfl, fun i hi => ⟨SameOut.refl _ _, by
      obtain ⟨r, hr⟩ := hit i hi; rw [hr]; simp⟩⟩ with ⟨d', h1, _⟩ | ⟨i, e, hi, _, h2⟩
  · exact ⟨d', h1⟩
  · obtain ⟨r, hr⟩ := hit i hi
    rw [hr] at h2; simp at h2

/-! ### Launches exist -/

omit [Arith F] in
theorem Dev.run_append (len No : Nat) (a b : List Nat) (d : Dev F) :
    Dev.run len No (a ++ b) d = (Dev.run len No a d).bind fun d' => Dev.run len No b d' := by
  induction a generalizing d with
  | nil => rfl
  | cons i is ih =>
    simp only [List.cons_append, Dev.run]
    by_cases hi : i < No
    · rw [if_pos hi, if_pos hi]
      cases d.step len i <;> simp [ih]
    · rw [if_neg hi, if_neg hi, ih]

omit [Arith F] in
/-- A defined work-item that is scheduled alone ends, and the others stay where they were. -/
theorem Dev.finish_item (len No : Nat) (i : Nat) (hi : i < No) :
    ∀ (p : Prog F Unit) (d : Dev F), d.item i = p → d.mem.size = len * No →
    (∃ r, p.runCol len (d.col len i) = .ok r) →
    ∃ sched d', Dev.run len No sched d = .ok d' ∧ (∃ a, d'.item i = .ret a) ∧
      d'.mem.size = len * No ∧ (∀ q, q ≠ i → d'.item q = d.item q) ∧
      ∀ q, q ≠ i → ColEq len (d.col len q) (d'.col len q) := by
  intro p
  have hin := col_in len No i hi
  induction p with
  | ret a => intro d hp hs _; exact ⟨[], d, rfl, ⟨a, hp⟩, hs, fun _ _ => rfl, fun _ _ _ _ => rfl⟩
  | bad e => intro d hp hs h; obtain ⟨r, h⟩ := h; simp [Prog.runCol] at h
  | spin => intro d hp hs h; obtain ⟨r, h⟩ := h; simp [Prog.runCol] at h
  | rd j k ih =>
    intro d hp hs ⟨r, h⟩
    simp only [Prog.runCol] at h
    split at h
    · next hj =>
      have hrd : d.mem.read (((len * i : Nat) : Int) + j) = .ok (d.col len i j.toNat) := by
        unfold Buf.read
        rw [if_pos (by omega)]
        unfold Dev.col
        congr 2
        omega
      let d1 : Dev F := ⟨d.mem, fun q => if q = i then k (d.col len i j.toNat) else d.item q⟩
      obtain ⟨sched, d', h1, h2, h3, h4, h5⟩ := ih (d.col len i j.toNat) d1
        (by simp [d1]) hs ⟨r, h⟩
      refine ⟨i :: sched, d', ?_, h2, h3, ?_, h5⟩
      · simp only [Dev.run]
        rw [if_pos hi, Dev.step, hp]
        simp only [hrd, Outcome.bind]
        exact h1
      · intro q hq
        rw [h4 q hq]
        simp [d1, hq]
    · simp at h
  | wr j x p ih =>
    intro d hp hs ⟨r, h⟩
    simp only [Prog.runCol] at h
    split at h
    · next hj =>
      let d1 : Dev F := ⟨⟨d.mem.size, fun q =>
        if q = (((len * i : Nat) : Int) + j).toNat then x else d.mem.data q⟩,
        fun q => if q = i then p else d.item q⟩
      have e : (((len * i : Nat) : Int) + j).toNat = len * i + j.toNat := by omega
      obtain ⟨sched, d', h1, h2, h3, h4, h5⟩ := ih d1 (by simp [d1]) hs ⟨r, by
        rw [← h]
        congr 1
        funext w
        simp only [d1, Dev.col, e]
        by_cases hw' : w = j.toNat
        · rw [if_pos hw', hw', if_pos rfl]
        · rw [if_neg hw', if_neg (by omega)]⟩
      refine ⟨i :: sched, d', ?_, h2, h3, ?_, ?_⟩
      · simp only [Dev.run]
        rw [if_pos hi, Dev.step, hp]
        simp only [Buf.write]
        rw [if_pos (by omega)]
        exact h1
      · intro q hq
        rw [h4 q hq]
        simp [d1, hq]
      · intro q hq w hw
        rw [← h5 q hq w hw]
        simp only [d1, Dev.col, e]
        have := col_sep len i q hq
        rw [if_neg (by omega)]
    · simp at h

omit [Arith F] in
/-- If all work-items are defined, some schedule finishes the launch. -/
theorem launch_exists (len No : Nat) (item : Nat → Prog F Unit) (fresh : Nat → F)
    (hit : ∀ i, i < No → ∃ r, itemOut len item fresh i = .ok r) :
    ∃ H, Launched len No item fresh H := by
  by_cases hNo : No % 64 = 0
  · suffices h : ∀ n, n ≤ No → ∃ sched d, Dev.run len No sched
        { mem := { size := len * No, data := fresh }, item := item } = .ok d ∧
        d.mem.size = len * No ∧
        (∀ i, i < n → ∃ a, d.item i = .ret a) ∧
        ∀ i, n ≤ i → d.item i = item i ∧ ColEq len (fun j => fresh (len * i + j)) (d.col len i) by
      obtain ⟨sched, d, h1, _, h3, _⟩ := h No (Nat.le_refl _)
      refine ⟨d.mem.data, ?_⟩
      unfold Launched
      rw [if_pos hNo]
      exact ⟨sched, d, h1, h3, fun _ _ => rfl⟩
    intro n
    induction n with
    | zero =>
      intro _
      exact ⟨[], _, rfl, rfl, fun i hi => by omega, fun i _ => ⟨rfl, fun _ _ => rfl⟩⟩
    | succ n ih =>
      intro hn
      obtain ⟨sched, d, h1, h2, h3, h4⟩ := ih (by omega)
      obtain ⟨r, hr⟩ := hit n (by omega)
      have hc := runCol_congr len (item n) _ (d.col len n) (h4 n (Nat.le_refl _)).2
      unfold itemOut at hr
      rw [hr] at hc
      obtain ⟨r', hr'⟩ : ∃ r', (item n).runCol len (d.col len n) = .ok r' := by
        cases h5 : (item n).runCol len (d.col len n) with
        | ok r' => exact ⟨r', rfl⟩
        | ub e => rw [h5] at hc; exact absurd hc (by simp [SameOut])
        | fuel => rw [h5] at hc; exact absurd hc (by simp [SameOut])
      obtain ⟨s2, d2, g1, g2, g3, g4, g5⟩ := Dev.finish_item len No n (by omega) (item n) d
        (h4 n (Nat.le_refl _)).1 h2 ⟨r', hr'⟩
      refine ⟨sched ++ s2, d2, ?_, g3, ?_, ?_⟩
      · rw [Dev.run_append, h1]; exact g1
      · intro i hi
        by_cases hin : i = n
        · rw [hin]; exact g2
        · rw [g4 i hin]; exact h3 i (by omega)
      · intro i hi
        have hin : i ≠ n := by omega
        refine ⟨by rw [g4 i hin]; exact (h4 i (by omega)).1, fun j hj => ?_⟩
        rw [(h4 i (by omega)).2 j hj, g5 i hin j hj]
  · refine ⟨fresh, ?_⟩
    unfold Launched
    rw [if_neg hNo]
    exact fun _ _ => rfl

end Dream
