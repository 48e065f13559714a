import Verif.ClaimsDasUni

/-
Claims about the interfaces of `das_uni`: C62, C63, C64, and the link from a call to C61.
-/

namespace Dream
open Arith

variable {F : Type} [Arith F]

/-- The arguments are matrices, which is all the wrappers can be given. -/
structure UniIn.Typed (x : UniIn F) : Prop where
  y : x.y.IsMatrix
  gt : x.gt.IsMatrix
  gr : x.gr.IsMatrix
  grid : x.grid.IsMatrix
  dt : x.dt.IsMatrix
  cp : x.cp.IsMatrix
  delay : x.delay.IsMatrix

/-- What is launched, in terms of the arguments. -/
structure UniAsked (fe : FrontEnd) (x : UniIn F) (j : UniJob F) : Prop where
  same : x.sameType = true
  y : ∃ n, x.y.shape = [j.len, n]
  yBuf : j.Y = ptr fe x.shared x.y
  gt : x.gt.size = 3
  tx : j.tx = ⟨x.gt.data 0, x.gt.data 1, x.gt.data 2⟩
  rx : (x.gr.size = 3 ∧ j.rx = ⟨x.gr.data 0, x.gr.data 1, x.gr.data 2⟩) ∨
    (x.gr.size = 0 ∧ j.rx = ⟨lit 0, lit 0, lit 0⟩)
  grid : ∃ r, x.grid.shape = [r, 3] ∧ 3 ≤ r ∧ (fe = .octave → r = 3)
  ix : j.ix = ⟨x.grid.data 0, x.grid.data 3, x.grid.data 6⟩
  iy : j.iy = ⟨x.grid.data 1, x.grid.data 4, x.grid.data 7⟩
  iz : j.iz = ⟨x.grid.data 2, x.grid.data 5, x.grid.data 8⟩
  counts : ∃ Nx Ny Nz, j.ix.host fe.idx = .ok Nx ∧ j.iy.host fe.idx = .ok Ny ∧
    j.iz.host fe.idx = .ok Nz ∧ (j.imLen : Int) = Nx * Ny * Nz
  dt : j.dt = x.dt.data 0
  cp : j.cp = x.cp.data 0
  delay : j.delay = ptr fe x.delayShared x.delay
  method : ∃ s, x.method = .text s ∧ DasName s j.method
  single : j.single = x.single

theorem readAxis_ok {a : Arg F} {i j k n : Nat} (h : a.size = n) (hi : i < n) (hj : j < n) (hk : k < n) :
    readAxis a.buf i j k = .ok ⟨a.data i, a.data j, a.data k⟩ := by
  unfold readAxis
  rw [Arg.read_eq h hi, Arg.read_eq h hj, Arg.read_eq h hk]
  rfl

theorem txArg_call {α : Type} {a : Arg F} {k : Axis F → Outcome (Front α)} {r : α} (ht : a.IsMatrix)
    (h : txArg a k = .ok (.call r)) :
    a.size = 3 ∧ k ⟨a.data 0, a.data 1, a.data 2⟩ = .ok (.call r) := by
  obtain ⟨m, n, hs⟩ := ht
  have hz := Arg.size_eq hs
  unfold txArg at h
  rw [Arg.dim_one hs, Arg.dim_zero hs] at h
  simp only [Outcome.bind, ← hz] at h
  by_cases h3 : a.size = 3
  · rw [if_neg (by simp [h3]), readAxis_ok h3 (by omega) (by omega) (by omega)] at h
    exact ⟨h3, h⟩
  · rw [if_pos h3] at h; simp at h

theorem rxArg_call {α : Type} {fe : FrontEnd} {a : Arg F} {k : Axis F → Outcome (Front α)} {r : α}
    (ht : a.IsMatrix) (h : rxArg fe a k = .ok (.call r)) :
    (a.size = 3 ∧ k ⟨a.data 0, a.data 1, a.data 2⟩ = .ok (.call r)) ∨
      (a.size = 0 ∧ k ⟨lit 0, lit 0, lit 0⟩ = .ok (.call r)) := by
  obtain ⟨m, n, hs⟩ := ht
  have hz := Arg.size_eq hs
  unfold rxArg at h
  rw [Arg.dim_one hs, Arg.dim_zero hs] at h
  simp only [Outcome.bind, ← hz] at h
  by_cases h0 : (if fe = .matlab then n else a.size) ≠ 0
  · rw [if_pos h0] at h
    by_cases h3 : a.size = 3
    · rw [if_neg (by simp [h3]), readAxis_ok h3 (by omega) (by omega) (by omega)] at h
      exact .inl ⟨h3, h⟩
    · rw [if_pos h3] at h; simp at h
  · rw [if_neg h0] at h
    refine .inr ⟨?_, h⟩
    by_cases hm : fe = .matlab
    · rw [if_pos hm] at h0
      have : n = 0 := by simpa using h0
      rw [hz, this, Nat.mul_zero]
    · rw [if_neg hm] at h0
      simpa using h0

theorem gridArg_call {α : Type} {fe : FrontEnd} (hfe : fe.mo) {a : Arg F}
    {k : Axis F → Axis F → Axis F → Outcome (Front α)} {r : α}
    (ht : a.IsMatrix) (h : gridArg fe a k = .ok (.call r)) :
    ∃ m, a.shape = [m, 3] ∧ 3 ≤ m ∧ (fe = .octave → m = 3) ∧
      k ⟨a.data 0, a.data 3, a.data 6⟩ ⟨a.data 1, a.data 4, a.data 7⟩ ⟨a.data 2, a.data 5, a.data 8⟩ =
        .ok (.call r) := by
  obtain ⟨m, n, hs⟩ := ht
  have hz := Arg.size_eq hs
  unfold gridArg at h
  rw [Arg.dim_one hs, Arg.dim_zero hs] at h
  simp only [Outcome.bind] at h
  split at h
  · simp at h
  · next hc =>
    have hn : n = 3 := by
      by_contra hn
      exact hc (.inl hn)
    subst hn
    obtain ⟨c, hc1, h⟩ := Outcome.bind_ok_inv h
    obtain ⟨d, hd1, h⟩ := Outcome.bind_ok_inv h
    obtain ⟨e, he1, h⟩ := Outcome.bind_ok_inv h
    have h3 : 3 ≤ m := by
      by_contra hm
      have : a.buf.read 8 = .ub .oob := by
        unfold Buf.read
        rw [if_neg]
        rintro ⟨_, h2⟩
        have : (8 : Int) < a.size := h2
        omega
      unfold readAxis at he1
      obtain ⟨_, _, he1⟩ := Outcome.bind_ok_inv he1
      obtain ⟨_, _, he1⟩ := Outcome.bind_ok_inv he1
      obtain ⟨_, h8, _⟩ := Outcome.bind_ok_inv he1
      rw [show ((8 : Nat) : Int) = 8 from rfl, this] at h8
      simp at h8
    refine ⟨m, hs, h3, ?_, ?_⟩
    · intro ho
      by_contra hm
      exact hc (.inr ⟨by rw [ho]; simp, hm⟩)
    · rw [readAxis_ok rfl (by omega) (by omega) (by omega)] at hc1 hd1 he1
      simp only [Outcome.ok.injEq] at hc1 hd1 he1
      rw [hc1, hd1, he1]
      exact h

/-- What an accepted call has been made into. -/
theorem frontUni_call {fe : FrontEnd} (hfe : fe.mo) {x : UniIn F} (ht : x.Typed) {j : UniJob F}
    (h : frontUni fe x = .ok (.call j)) : UniAsked fe x j := by
  unfold frontUni at h
  by_cases hsame : x.sameType = false
  · rw [if_pos hsame] at h; simp at h
  rw [if_neg hsame] at h
  obtain ⟨ym, yn, hy⟩ := ht.y
  rw [Arg.dim_zero hy, Outcome.ok_bind] at h
  obtain ⟨h1, h⟩ := txArg_call ht.gt h
  have hrx : ∃ rx : Axis F, ((x.gr.size = 3 ∧ rx = ⟨x.gr.data 0, x.gr.data 1, x.gr.data 2⟩) ∨
    (x.gr.size = 0 ∧ rx = ⟨lit 0, lit 0, lit 0⟩)) ∧ gridArg fe x.grid (fun ix iy iz =>
  (ix.host fe.idx).bind fun Nx => (iy.host fe.idx).bind fun Ny => (iz.host fe.idx).bind fun Nz =>
  scalarArg x.dt fun dt =>
  (checkDelay fe x.delay (Nx * Ny * Nz).toNat).bind fun r => r.next fe fun _ =>
  scalarArg x.cp fun cp =>
  (parseDas fe x.method).next fe fun m =>
  allocOut (Nx * Ny * Nz) fun imLen =>
  .ok (.call {
    tx := ⟨x.gt.data 0, x.gt.data 1, x.gt.data 2⟩, rx := rx, ix := ix, iy := iy, iz := iz
    Y := ptr fe x.shared x.y, len := ym, method := m
    dt := dt, delay := ptr fe x.delayShared x.delay, cp := cp
    imLen := imLen, single := x.single })) = .ok (.call j) := by
    rcases rxArg_call ht.gr h with ⟨g1, g2⟩ | ⟨g1, g2⟩
    · exact ⟨_, .inl ⟨g1, rfl⟩, g2⟩
    · exact ⟨_, .inr ⟨g1, rfl⟩, g2⟩
  obtain ⟨rx, hrx, h⟩ := hrx
  obtain ⟨r, hg1, hg2, hg3, h⟩ := gridArg_call hfe ht.grid h
  obtain ⟨Nx, hNx, h⟩ := Outcome.bind_ok_inv h
  obtain ⟨Ny, hNy, h⟩ := Outcome.bind_ok_inv h
  obtain ⟨Nz, hNz, h⟩ := Outcome.bind_ok_inv h
  obtain ⟨_, h⟩ := scalarArg_call ht.dt h
  have hvec : x.delay.IsVecArg fe := by
    rcases hfe with rfl | rfl <;> exact ht.delay
  obtain ⟨_, h⟩ := checkDelay_call hvec h
  obtain ⟨_, h⟩ := scalarArg_call ht.cp h
  obtain ⟨s, m, hm1, hm2, h⟩ := parseDas_call h
  unfold allocOut at h
  split at h
  · simp at h
  · next hneg =>
    simp only [Outcome.ok.injEq, Front.call.injEq] at h
    subst h
    exact ⟨by simpa using hsame, ⟨yn, hy⟩, rfl, h1, rfl, hrx, ⟨r, hg1, hg2, hg3⟩, rfl, rfl, rfl,
      ⟨Nx, Ny, Nz, hNx, hNy, hNz, by show ((Nx * Ny * Nz).toNat : Int) = _; omega⟩, rfl, rfl, rfl,
      ⟨s, hm1, hm2⟩, rfl⟩

/-! ### What is kept between calls -/

/-- What holds of every object: its sizes are positive and fit. -/
def UniSetup.Fine (single : Bool) (o : UniSetup) : Prop :=
  (fitsClInt (o.dataLen * if single then 4 else 8) && fitsClInt (o.No * if single then 4 else 8)) = true ∧
    0 < o.dataLen ∧ 0 < o.No ∧ o.forObj = o

theorem UniSetup.forObj_idem (s : UniSetup) : s.forObj.forObj = s.forObj := by
  unfold UniSetup.forObj
  by_cases h : s.dasType = .saft
  · simp [h]
  · simp [h]

theorem UniSetup.build_ok {i single : Bool} {s o : UniSetup} (h : s.build i single = .ok o) :
    o = s.forObj ∧ o.Fine single ∧ i = true := by
  unfold UniSetup.build at h
  dsimp only at h
  generalize hw : (if single then (4 : Int) else 8) = w at h
  split at h
  · simp at h
  · next h1 =>
    split at h
    · simp at h
    · next h2 =>
      simp only [UniBuilt.ok.injEq] at h
      subst h
      refine ⟨rfl, ⟨by rw [hw]; simpa using h1, ?_, ?_, s.forObj_idem⟩, ?_⟩
      · by_contra g; exact h2 (.inl (by omega))
      · by_contra g; exact h2 (.inr (.inl (by omega)))
      · cases i with
        | true => rfl
        | false => exact absurd (.inr (.inr rfl)) h2

theorem UniSetup.build_fine {single : Bool} {o : UniSetup} (h : o.Fine single) :
    o.build true single = .ok o := by
  obtain ⟨h1, h2, h3, h4⟩ := h
  unfold UniSetup.build
  simp only [h4]
  rw [h1]
  simp only [Bool.not_true, Bool.false_eq_true, if_false]
  rw [if_neg]
  rintro (g | g | g)
  · omega
  · omega
  · simp at g

theorem UniSetup.not_changed {o s : UniSetup} (h : o.changed s = false) : s = o := by
  unfold UniSetup.changed at h
  simp only [Bool.or_eq_false_iff, bne_eq_false_iff_eq] at h
  obtain ⟨⟨⟨⟨h1, h2⟩, h3⟩, h4⟩, h5⟩ := h
  cases o; cases s
  simp_all

/-- The kept objects are fine. -/
def UniStore.Ok (st : UniStore) : Prop :=
  (∀ o, st.f = some o → o.Fine true) ∧ ∀ o, st.d = some o → o.Fine false

theorem useUni_ok {i single : Bool} {cur : Option UniSetup} {s o : UniSetup}
    (hc : ∀ o, cur = some o → o.Fine single) (h : (useUni i single cur s).1 = .ok o) :
    o = s.forObj ∧ o.Fine single := by
  unfold useUni at h
  cases cur with
  | none => exact ⟨(UniSetup.build_ok h).1, (UniSetup.build_ok h).2.1⟩
  | some p =>
    simp only at h
    cases hch : p.changed s with
    | true =>
      rw [hch] at h
      exact ⟨(UniSetup.build_ok h).1, (UniSetup.build_ok h).2.1⟩
    | false =>
      rw [hch] at h
      simp only [Bool.false_eq_true, if_false, UniBuilt.ok.injEq] at h
      subst h
      have := UniSetup.not_changed hch
      subst this
      exact ⟨(hc _ rfl).2.2.2.symm, hc _ rfl⟩

/-- With a working OpenCL the object used is the one that a new session would make. -/
theorem useUni_fresh {single : Bool} {cur : Option UniSetup} {s : UniSetup}
    (hc : ∀ o, cur = some o → o.Fine single) :
    (useUni true single cur s).1 = s.build true single := by
  unfold useUni
  cases cur with
  | none => rfl
  | some p =>
    simp only
    cases hch : p.changed s with
    | true => simp
    | false =>
      have := UniSetup.not_changed hch
      subst this
      simp only [Bool.false_eq_true, if_false]
      exact (UniSetup.build_fine (hc _ rfl)).symm

theorem UniStore.Ok.cur {st : UniStore} (h : st.Ok) (single : Bool) :
    ∀ o, (if single then st.f else st.d) = some o → o.Fine single := by
  cases single
  · exact h.2
  · exact h.1

theorem UniStore.Ok.drop {st : UniStore} (h : st.Ok) (b single : Bool) :
    (if b then (if single then { st with d := none } else { st with f := none }) else st : UniStore).Ok := by
  cases b <;> cases single <;> simp only [if_true, Bool.false_eq_true, if_false]
  · exact h
  · exact h
  · exact ⟨fun o g => by simp at g, h.2⟩
  · exact ⟨h.1, fun o g => by simp at g⟩

theorem UniJob.call_ok {fe : FrontEnd} {i : Bool} {st : UniStore} (h : st.Ok) (j : UniJob F) :
    (j.call fe i st).1.Ok := by
  unfold UniJob.call
  cases hs : j.toUniGeo.counts fe.idx j.method j.len with
  | ub u => exact h
  | fuel => exact h
  | ok s =>
    simp only
    have hd := h.drop (useUni i j.single (if j.single then st.f else st.d) s).2 j.single
    cases hu : (useUni i j.single (if j.single then st.f else st.d) s).1 with
    | failed => exact hd
    | tooBig => exact hd
    | ok o =>
      have hf := (useUni_ok (h.cur j.single) hu).2
      simp only
      generalize (if (useUni i j.single (if j.single then st.f else st.d) s).2 = true then _ else st : UniStore) = st'
        at hd
      cases hsg : j.single with
      | true =>
        rw [hsg] at hf
        exact ⟨fun o g => by
          simp only [if_true, Option.some.injEq] at g
          exact g ▸ hf, hd.2⟩
      | false =>
        rw [hsg] at hf
        exact ⟨hd.1, fun o g => by
          simp only [Bool.false_eq_true, if_false, Option.some.injEq] at g
          exact g ▸ hf⟩

theorem uniCall_ok {fe : FrontEnd} {st : UniStore} (h : st.Ok) (e : Bool × UniIn F) :
    (uniCall fe st e).1.Ok := by
  unfold uniCall
  cases frontUni fe e.2 with
  | ub u => exact h
  | fuel => exact h
  | ok r =>
    cases r with
    | rejected b => exact h
    | call j => exact UniJob.call_ok h j

theorem uniSession_ok (fe : FrontEnd) (es : List (Bool × UniIn F)) : (uniSession fe es).Ok := by
  unfold uniSession
  have : ∀ (st : UniStore), st.Ok → (List.foldl (fun st e => (uniCall fe st e).1) st es).Ok := by
    induction es with
    | nil => exact fun st h => h
    | cons e es ih => exact fun st h => ih _ (uniCall_ok h e)
  exact this _ ⟨fun o g => by simp at g, fun o g => by simp at g⟩

/-- What an object is used for. -/
def UniBuilt.use (b : UniBuilt) (j : UniJob F) : Outcome (UniOut F) :=
  match b with
  | .failed => .ok .initFailed
  | .tooBig => .ok .tooBig
  | .ok o => j.on o

theorem UniJob.call_out (fe : FrontEnd) (i : Bool) (st : UniStore) (j : UniJob F) :
    (j.call fe i st).2 = (j.toUniGeo.counts fe.idx j.method j.len).bind fun s =>
      (useUni i j.single (if j.single then st.f else st.d) s).1.use j := by
  unfold UniJob.call
  cases j.toUniGeo.counts fe.idx j.method j.len with
  | ub u => rfl
  | fuel => rfl
  | ok s =>
    simp only [Outcome.bind]
    cases (useUni i j.single (if j.single then st.f else st.d) s).1 <;> rfl

theorem uniCall_call {fe : FrontEnd} {st : UniStore} {e : Bool × UniIn F} {j : UniJob F}
    (h : frontUni fe e.2 = .ok (.call j)) : uniCall fe st e = j.call fe e.1 st := by
  unfold uniCall
  rw [h]

theorem uniCall_same {fe : FrontEnd} {st st' : UniStore} {i i' : Bool} {x : UniIn F}
    (h : ∀ j, frontUni fe x = .ok (.call j) → (j.call fe i st).2 = (j.call fe i' st').2) :
    (uniCall fe st (i, x)).2 = (uniCall fe st' (i', x)).2 := by
  unfold uniCall
  cases hf : frontUni fe x with
  | ub u => rfl
  | fuel => rfl
  | ok r =>
    cases r with
    | rejected b => rfl
    | call j => exact h j hf

/-! ### C64: calls of `das_uni` do not influence each other -/

/-- C64: while OpenCL works, the outcome of a call is the one it has in a new session, whatever calls
(accepted, refused, failed, of any precision, geometry and method) were made before. -/
theorem C64_history (fe : FrontEnd) (hist : List (Bool × UniIn F)) (x : UniIn F) :
    (uniCall fe (uniSession fe hist) (true, x)).2 = (uniCall fe ⟨none, none⟩ (true, x)).2 := by
  have hS := uniSession_ok fe hist
  generalize uniSession fe hist = st at hS
  refine uniCall_same fun j _ => ?_
  rw [UniJob.call_out, UniJob.call_out]
  congr 1
  funext s
  rw [useUni_fresh (hS.cur j.single), useUni_fresh (fun o g => by simp at g)]

/-- C64: when the set-up of OpenCL fails in this very call the outcome is the one of a new session or
the one with a working OpenCL (when the object of an earlier call is used again). -/
theorem C64_history_fail (fe : FrontEnd) (hist : List (Bool × UniIn F)) (i : Bool) (x : UniIn F) :
    (uniCall fe (uniSession fe hist) (i, x)).2 = (uniCall fe ⟨none, none⟩ (i, x)).2 ∨
    (uniCall fe (uniSession fe hist) (i, x)).2 = (uniCall fe ⟨none, none⟩ (true, x)).2 := by
  have hT := C64_history fe hist x
  generalize uniSession fe hist = st at hT
  rw [← hT]
  cases hf : frontUni fe x with
  | ub u => exact .inl (uniCall_same fun j hj => by rw [hf] at hj; simp at hj)
  | fuel => exact .inl (uniCall_same fun j hj => by rw [hf] at hj; simp at hj)
  | ok r =>
    cases r with
    | rejected b => exact .inl (uniCall_same fun j hj => by rw [hf] at hj; simp at hj)
    | call j =>
      rw [uniCall_call (e := (i, x)) hf, uniCall_call (e := (i, x)) hf, uniCall_call (e := (true, x)) hf,
        UniJob.call_out, UniJob.call_out, UniJob.call_out]
      cases j.toUniGeo.counts fe.idx j.method j.len with
      | ub u => exact .inl rfl
      | fuel => exact .inl rfl
      | ok s =>
        simp only [Outcome.bind]
        rw [ite_self]
        generalize (if j.single = true then st.f else st.d) = cur
        cases cur with
        | none => exact .inl rfl
        | some p =>
          unfold useUni
          cases hch : p.changed s with
          | true => simp [hch]
          | false => simp [hch]

/-- What is launched, in terms of the arguments: the geometry, sampling interval, sound speed and the
FIRST delay that were given, the method that was named, the data with as many rows as were given, and as
many image points as the grid has; every one of them has a work-item and an entry of the image. -/
structure UniLaunch (x : UniIn F) (m : DASType) (A : UniArgs F) (No imLen : Nat) : Prop where
  method : ∃ s, x.method = .text s ∧ DasName s m
  tx : A.tx = ⟨x.gt.data 0, x.gt.data 1, x.gt.data 2⟩
  rx : x.gr.size = 3 → A.rx = ⟨x.gr.data 0, x.gr.data 1, x.gr.data 2⟩
  ix : A.ix = ⟨x.grid.data 0, x.grid.data 3, x.grid.data 6⟩
  iy : A.iy = ⟨x.grid.data 1, x.grid.data 4, x.grid.data 7⟩
  iz : A.iz = ⟨x.grid.data 2, x.grid.data 5, x.grid.data 8⟩
  len : ∃ n, x.y.shape = [A.len, n]
  Y : ∀ i, i < A.Y.size → A.Y.data i = x.y.data i
  dt : A.dt = x.dt.data 0
  cp : A.cp = x.cp.data 0
  delay : A.delay = x.delay.data 0
  image : imLen = No
  counts : ∃ nt nr Nx Ny Nz : Int, trunc A.tx.raw = some nt ∧ trunc A.rx.raw = some nr ∧
    trunc A.ix.raw = some Nx ∧ trunc A.iy.raw = some Ny ∧ trunc A.iz.raw = some Nz ∧
    (No : Int) = Nx * Ny * Nz ∧ 0 < No ∧
    (A.Y.size : Int) = A.len * nt * (if m = .saft then 1 else nr) ∧ 0 < A.Y.size ∧
    A.Y.size ≤ x.y.size ∧ (No : Int) < 536870912 ∧ (A.Y.size : Int) < 536870912

theorem ptr_read {fe : FrontEnd} {sh : Bool} {a : Arg F} {v : F} (h : (ptr fe sh a).read 0 = .ok v) :
    v = a.data 0 := by
  unfold ptr at h
  split at h
  · simp [Buf.read] at h
  · unfold Buf.read at h
    split at h
    · simp only [Outcome.ok.injEq] at h
      rw [← h]; rfl
    · simp at h

theorem host_trunc {ty : IdxTy} {a : Axis F} {n : Int} (h : a.host ty = .ok n) : trunc a.raw = some n := by
  unfold Axis.host castIdx at h
  cases ht : trunc a.raw with
  | none => rw [ht] at h; simp at h
  | some i =>
    rw [ht] at h
    simp only at h
    split at h
    · simpa using h
    · simp at h

theorem ptr_size_le (fe : FrontEnd) (sh : Bool) (a : Arg F) : (ptr fe sh a).size ≤ a.size := by
  unfold ptr
  split
  · exact Nat.zero_le _
  · exact le_refl _

/-- C64: what a call launches, whatever was called before, is what its own arguments ask for. -/
theorem C64_launch (fe : FrontEnd) (hfe : fe.mo) (hist : List (Bool × UniIn F)) (i : Bool) (x : UniIn F)
    (ht : x.Typed) (m : DASType) (A : UniArgs F) (No imLen : Nat)
    (h : (uniCall fe (uniSession fe hist) (i, x)).2 = .ok (.launch m A No imLen)) :
    UniLaunch x m A No imLen := by
  have hS := uniSession_ok fe hist
  generalize uniSession fe hist = st at hS h
  cases hf : frontUni fe x with
  | ub u => unfold uniCall at h; simp [hf] at h
  | fuel => unfold uniCall at h; simp [hf] at h
  | ok r =>
    cases r with
    | rejected b => unfold uniCall at h; simp [hf] at h
    | call j =>
      have hp := frontUni_call hfe ht hf
      rw [uniCall_call (e := (i, x)) hf, UniJob.call_out] at h
      obtain ⟨s, hs, h⟩ := Outcome.bind_ok_inv h
      unfold UniGeo.counts at hs
      obtain ⟨nt, hnt, hs⟩ := Outcome.bind_ok_inv hs
      obtain ⟨nr, hnr, hs⟩ := Outcome.bind_ok_inv hs
      obtain ⟨Nx, hNx, hs⟩ := Outcome.bind_ok_inv hs
      obtain ⟨Ny, hNy, hs⟩ := Outcome.bind_ok_inv hs
      obtain ⟨Nz, hNz, hs⟩ := Outcome.bind_ok_inv hs
      simp only [Outcome.ok.injEq] at hs
      cases hu : (useUni i j.single (if j.single then st.f else st.d) s).1 with
      | failed => rw [hu] at h; simp [UniBuilt.use] at h
      | tooBig => rw [hu] at h; simp [UniBuilt.use] at h
      | ok o =>
        rw [hu] at h
        obtain ⟨ho, hfine⟩ := useUni_ok (hS.cur j.single) hu
        simp only [UniBuilt.use] at h
        unfold UniJob.on at h
        obtain ⟨d, hd, h⟩ := Outcome.bind_ok_inv h
        split at h
        · simp at h
        next hle =>
        simp only [Outcome.ok.injEq, UniOut.launch.injEq] at h
        obtain ⟨h1, h2, h3, h4⟩ := h
        have e1 : o.dasType = j.method := by
          rw [ho, ← hs]; unfold UniSetup.forObj; split <;> rfl
        have e2 : o.len = j.len := by
          rw [ho, ← hs]; unfold UniSetup.forObj; split <;> rfl
        have e3 : o.No = Nx * Ny * Nz := by
          rw [ho, ← hs]; unfold UniSetup.forObj; split <;> rfl
        have e4 : o.dataLen = j.len * nt * (if j.method = .saft then 1 else nr) := by
          rw [ho, ← hs]
          unfold UniSetup.forObj UniSetup.dataLen
          by_cases hm : j.method = .saft
          · simp [hm]
          · simp [hm]
        obtain ⟨f1, f2, f3, _⟩ := hfine
        have w : (4 : Int) ≤ (if j.single then 4 else 8) := by split <;> omega
        simp only [Bool.and_eq_true, fitsClInt, decide_eq_true_eq] at f1
        have b1 : o.dataLen < 536870912 := by nlinarith [f1.1.2]
        have b2 : o.No < 536870912 := by nlinarith [f1.2.2]
        obtain ⟨Nx', Ny', Nz', c1, c2, c3, c4⟩ := hp.counts
        rw [hNx, Outcome.ok.injEq] at c1
        rw [hNy, Outcome.ok.injEq] at c2
        rw [hNz, Outcome.ok.injEq] at c3
        subst c1 c2 c3
        subst h2 h3 h4
        rw [hp.delay] at hd
        have hyle : o.dataLen.toNat ≤ x.y.size := by
          have := ptr_size_le fe x.shared x.y
          rw [← hp.yBuf] at this
          omega
        refine ⟨h1 ▸ e1 ▸ hp.method, hp.tx, ?_, hp.ix, hp.iy, hp.iz, ?_, ?_, hp.dt, hp.cp,
          ptr_read hd, ?_, nt, nr, Nx, Ny, Nz, host_trunc hnt, host_trunc hnr, host_trunc hNx,
          host_trunc hNy, host_trunc hNz, ?_, ?_, ?_, ?_, hyle, ?_, ?_⟩
        · intro g
          rcases hp.rx with ⟨_, k⟩ | ⟨k, _⟩
          · exact k
          · omega
        · show ∃ n, x.y.shape = [o.len, n]
          rw [e2]; exact hp.y
        · intro k _
          show j.Y.data k = _
          rw [hp.yBuf, ptr_data]
        · rw [e3]; omega
        · rw [← e3]; omega
        · omega
        · show ((o.dataLen.toNat : Nat) : Int) = o.len * nt * _
          rw [e2, ← h1, e1, ← e4]; omega
        · show 0 < o.dataLen.toNat
          omega
        · omega
        · show ((o.dataLen.toNat : Nat) : Int) < _
          omega

/-- Documented arguments: `len` rows and `n` columns of data, `nt` transmit and `nr` receive elements,
an `Nx` by `Ny` by `Nz` grid, sizes that OpenCL can handle, memory that outlives the call. -/
structure UniDoc (fe : FrontEnd) (x : UniIn F) (m : DASType) (len n nt nr Nx Ny Nz : Nat) : Prop where
  typed : x.Typed
  same : x.sameType = true
  y : x.y.shape = [len, n]
  gt : x.gt.size = 3
  gr : x.gr.size = 3
  grid : x.grid.shape = [3, 3]
  dt : x.dt.shape = [1, 1]
  cp : x.cp.shape = [1, 1]
  delay : x.delay.size = 1 ∨ x.delay.size = Nx * Ny * Nz
  method : ∃ s, x.method = .text s ∧ DasName s m
  tx : trunc (Axis.raw ⟨x.gt.data 0, x.gt.data 1, x.gt.data 2⟩) = some (nt : Int)
  rx : trunc (Axis.raw ⟨x.gr.data 0, x.gr.data 1, x.gr.data 2⟩) = some (nr : Int)
  ix : trunc (Axis.raw ⟨x.grid.data 0, x.grid.data 3, x.grid.data 6⟩) = some (Nx : Int)
  iy : trunc (Axis.raw ⟨x.grid.data 1, x.grid.data 4, x.grid.data 7⟩) = some (Ny : Int)
  iz : trunc (Axis.raw ⟨x.grid.data 2, x.grid.data 5, x.grid.data 8⟩) = some (Nz : Int)
  pos : 1 ≤ len ∧ 1 ≤ nt ∧ 1 ≤ nr ∧ 1 ≤ Nx ∧ 1 ≤ Ny ∧ 1 ≤ Nz
  small : nr < 2147483648 ∧ len * uniScans m nt nr * 8 < 2147483648 ∧ Nx * Ny * Nz * 8 < 2147483648
  mem : fe = .octave → x.shared = true ∧ x.delayShared = true

theorem host_of_trunc (ty : IdxTy) {a : Axis F} {n : Nat} (h : trunc a.raw = some (n : Int))
    (hn : n < 2147483648) : a.host ty = .ok (n : Int) := by
  unfold Axis.host castIdx
  rw [h]
  simp only
  rw [if_pos]
  cases ty
  · simp only [IdxTy.fits, decide_eq_true_eq]; omega
  · simp only [IdxTy.fits, decide_eq_true_eq]; omega

theorem ptr_mem {fe : FrontEnd} {sh : Bool} (a : Arg F) (h : fe = .octave → sh = true) :
    ptr fe sh a = a.buf := by
  unfold ptr
  rw [if_neg]
  rintro ⟨g1, g2⟩
  rw [h g1] at g2
  simp at g2

/-- What documented arguments come to. -/
theorem UniDoc.out {fe : FrontEnd} (hfe : fe.mo) {x : UniIn F} {m : DASType}
    {len n nt nr Nx Ny Nz : Nat} (h : UniDoc fe x m len n nt nr Nx Ny Nz) :
    (n < uniScans m nt nr → (uniCall fe ⟨none, none⟩ (true, x)).2 = .ub .oob) ∧
    (uniScans m nt nr ≤ n → ∃ A No imLen,
      (uniCall fe ⟨none, none⟩ (true, x)).2 = .ok (.launch m A No imLen)) := by
  obtain ⟨p1, p2, p3, p4, p5, p6⟩ := h.pos
  obtain ⟨q1, q2, q3⟩ := h.small
  have bsc : 1 ≤ uniScans m nt nr ∧ nt ≤ uniScans m nt nr := by
    unfold uniScans
    split
    · omega
    · exact ⟨Nat.mul_pos p2 p3, Nat.le_mul_of_pos_right _ p3⟩
  have bnt : nt < 2147483648 := by
    have : uniScans m nt nr ≤ len * uniScans m nt nr := Nat.le_mul_of_pos_left _ p1
    omega
  have b1 : Nx ≤ Nx * Ny * Nz :=
    (Nat.le_mul_of_pos_right _ p5).trans (Nat.le_mul_of_pos_right _ p6)
  have b2 : Ny ≤ Nx * Ny * Nz :=
    (Nat.le_mul_of_pos_left _ p4).trans (Nat.le_mul_of_pos_right _ p6)
  have b3 : Nz ≤ Nx * Ny * Nz := Nat.le_mul_of_pos_left _ (Nat.mul_pos p4 p5)
  have hnt := host_of_trunc fe.idx h.tx bnt
  have hnr := host_of_trunc fe.idx h.rx q1
  have hNx := host_of_trunc fe.idx h.ix (by omega)
  have hNy := host_of_trunc fe.idx h.iy (by omega)
  have hNz := host_of_trunc fe.idx h.iz (by omega)
  obtain ⟨s, hs1, hs2⟩ := h.method
  have hvec : x.delay.IsVecArg fe := by
    rcases hfe with rfl | rfl <;> exact h.typed.delay
  have hf : frontUni fe x = .ok (.call {
      tx := ⟨x.gt.data 0, x.gt.data 1, x.gt.data 2⟩, rx := ⟨x.gr.data 0, x.gr.data 1, x.gr.data 2⟩
      ix := ⟨x.grid.data 0, x.grid.data 3, x.grid.data 6⟩
      iy := ⟨x.grid.data 1, x.grid.data 4, x.grid.data 7⟩
      iz := ⟨x.grid.data 2, x.grid.data 5, x.grid.data 8⟩
      Y := x.y.buf, len := len, method := m, dt := x.dt.data 0, delay := x.delay.buf
      cp := x.cp.data 0, imLen := Nx * Ny * Nz, single := x.single }) := by
    unfold frontUni
    rw [if_neg (by rw [h.same]; simp), Arg.dim_zero h.y, Outcome.ok_bind]
    obtain ⟨t1, t2, ht⟩ := h.typed.gt
    obtain ⟨r1, r2, hr⟩ := h.typed.gr
    unfold txArg
    rw [Arg.dim_zero ht, Arg.dim_one ht, Outcome.ok_bind, Outcome.ok_bind, ← Arg.size_eq ht,
      if_neg (by simp [h.gt]), readAxis_ok h.gt (by omega) (by omega) (by omega), Outcome.ok_bind]
    unfold rxArg
    rw [Arg.dim_zero hr, Arg.dim_one hr, Outcome.ok_bind, Outcome.ok_bind, ← Arg.size_eq hr]
    rw [if_pos (by
      have hz := Arg.size_eq hr
      rw [h.gr] at hz
      split
      · rintro rfl; omega
      · rw [h.gr]; omega)]
    rw [if_neg (by simp [h.gr]), readAxis_ok h.gr (by omega) (by omega) (by omega), Outcome.ok_bind]
    have hg9 : x.grid.size = 9 := Arg.size_eq h.grid
    unfold gridArg
    rw [Arg.dim_zero h.grid, Arg.dim_one h.grid, Outcome.ok_bind, Outcome.ok_bind, if_neg (by simp),
      readAxis_ok hg9 (by omega) (by omega) (by omega), Outcome.ok_bind,
      readAxis_ok hg9 (by omega) (by omega) (by omega), Outcome.ok_bind,
      readAxis_ok hg9 (by omega) (by omega) (by omega), Outcome.ok_bind]
    beta_reduce
    rw [hNx, Outcome.ok_bind, hNy, Outcome.ok_bind, hNz, Outcome.ok_bind, scalarArg_ok h.dt]
    have hNo : ((Nx : Int) * Ny * Nz).toNat = Nx * Ny * Nz := by
      rw [← Nat.cast_mul, ← Nat.cast_mul, Int.toNat_natCast]
    rw [hNo, checkDelay_ok hvec h.delay, scalarArg_ok h.cp, hs1, parseDas_ok fe hs2]
    unfold allocOut
    rw [hNo, if_neg (not_lt.2 (by positivity)), ptr_mem x.y (fun g => (h.mem g).1),
      ptr_mem x.delay (fun g => (h.mem g).2)]
  rw [uniCall_call (e := (true, x)) hf, UniJob.call_out]
  unfold UniGeo.counts
  simp only
  rw [hnt, Outcome.ok_bind, hnr, Outcome.ok_bind, hNx, Outcome.ok_bind, hNy, Outcome.ok_bind, hNz,
    Outcome.ok_bind, Outcome.ok_bind, ite_self]
  generalize hS : ({ dasType := m, len := len, No := (Nx : Int) * Ny * Nz, nt := nt, nr := nr } : UniSetup) = S
  have e1 : S.forObj.dasType = m := by
    rw [← hS]; unfold UniSetup.forObj; split <;> rfl
  have e3 : S.forObj.No = ((Nx * Ny * Nz : Nat) : Int) := by
    rw [← hS]; unfold UniSetup.forObj; split <;> (push_cast; rfl)
  have e4 : S.forObj.dataLen = ((len * uniScans m nt nr : Nat) : Int) := by
    rw [← hS]
    unfold UniSetup.forObj UniSetup.dataLen uniScans
    by_cases hm : m = .saft
    · simp [hm]
    · simp [hm, mul_assoc]
  have hb : S.build true x.single = .ok S.forObj := by
    unfold UniSetup.build
    dsimp only
    have hpos : 0 < len * uniScans m nt nr := Nat.mul_pos p1 bsc.1
    have hpos2 : 0 < Nx * Ny * Nz := Nat.mul_pos (Nat.mul_pos p4 p5) p6
    rw [e3, e4, if_neg, if_neg]
    · rintro (g | g | g)
      · omega
      · omega
      · simp at g
    · simp only [Bool.not_eq_true', Bool.and_eq_false_iff, not_or, Bool.not_eq_false, fitsClInt,
        decide_eq_true_eq]
      cases x.single <;> simp only [if_true, Bool.false_eq_true, if_false] <;> omega
  have hu : (useUni true x.single none S).1 = .ok S.forObj := hb
  rw [hu]
  simp only [UniBuilt.use, UniJob.on]
  have hd : x.delay.buf.read 0 = .ok (x.delay.data 0) :=
    Arg.read_eq (i := 0) rfl (by
      rcases h.delay with g | g
      · omega
      · rw [g]; exact Nat.mul_pos (Nat.mul_pos p4 p5) p6)
  rw [hd, Outcome.ok_bind, e4, e1]
  constructor
  · intro hn
    rw [if_pos]
    show ((x.y.size : Nat) : Int) < _
    rw [Arg.size_eq h.y]
    exact_mod_cast Nat.mul_lt_mul_of_pos_left hn p1
  · intro hn
    rw [if_neg]
    · exact ⟨_, _, _, rfl⟩
    show ¬ ((x.y.size : Nat) : Int) < _
    rw [Arg.size_eq h.y]
    have : len * uniScans m nt nr ≤ len * n := Nat.mul_le_mul_left _ (by omega)
    exact_mod_cast Nat.not_lt.2 this

/-- C64: with a working OpenCL a documented call is launched, whatever was called before. -/
theorem C64_accepted (fe : FrontEnd) (hfe : fe.mo) (hist : List (Bool × UniIn F)) (x : UniIn F)
    (m : DASType) (len n nt nr Nx Ny Nz : Nat) (h : UniDoc fe x m len n nt nr Nx Ny Nz)
    (hn : uniScans m nt nr ≤ n) :
    ∃ A No imLen, (uniCall fe (uniSession fe hist) (true, x)).2 = .ok (.launch m A No imLen) := by
  obtain ⟨A, No, imLen, g⟩ := (h.out hfe).2 hn
  exact ⟨A, No, imLen, (C64_history fe hist x).trans g⟩

/-- C64 (violated): the number of A-scans is not compared with the geometry: with fewer columns of data
than pairs of elements the data are read beyond their end. -/
theorem C64_too_few (fe : FrontEnd) (hfe : fe.mo) (hist : List (Bool × UniIn F)) (x : UniIn F)
    (m : DASType) (len n nt nr Nx Ny Nz : Nat) (h : UniDoc fe x m len n nt nr Nx Ny Nz)
    (hn : n < uniScans m nt nr) :
    (uniCall fe (uniSession fe hist) (true, x)).2 = .ub .oob := by
  exact (C64_history fe hist x).trans ((h.out hfe).1 hn)

/-- C64 (violated): with a number of image points that is no multiple of 64 the image is whatever was in
the memory of the device. -/
theorem C64_ragged (x : UniIn F) (m : DASType) (A : UniArgs F) (No imLen : Nat)
    (_h : UniLaunch x m A No imLen) (hNo : No % 64 ≠ 0) (fresh H : Nat → F)
    (hl : Launched 1 No (uniItems m A) fresh H) : ∀ i, i < imLen → H i = fresh i := by
  unfold Launched at hl
  rw [if_neg hNo] at hl
  intro i hi
  exact hl i (by have := _h.image; omega)

/-! ### From the call to the image (C61) -/

/-- C61: the work of a launched call is as `C61_image` and `C61_as_das` suppose if none of the intervals
in its arguments runs backwards. -/
theorem C61_launch (x : UniIn F) (m : DASType) (A : UniArgs F) (No imLen : Nat)
    (h : UniLaunch x m A No imLen)
    (ht : ∀ i, trunc A.tx.raw = some i → 0 ≤ i) (hx : ∀ i, trunc A.ix.raw = some i → 0 ≤ i)
    (hy : ∀ i, trunc A.iy.raw = some i → 0 ≤ i) (hz : ∀ i, trunc A.iz.raw = some i → 0 ≤ i) :
    ∃ nt nr Nx Ny Nz : Nat, UniCounts m A nt nr Nx Ny Nz ∧ No = Nx * Ny * Nz ∧ imLen = No ∧
      uniScans m nt nr * A.len = A.Y.size := by
  obtain ⟨nt, nr, Nx, Ny, Nz, c1, c2, c3, c4, c5, c6, c7, c8, c9, _, c10, c11⟩ := h.counts
  have g1 := ht _ c1
  have g3 := hx _ c3
  have g4 := hy _ c4
  have g5 := hz _ c5
  lift nt to ℕ using g1
  lift Nx to ℕ using g3
  lift Ny to ℕ using g4
  lift Nz to ℕ using g5
  have hNo : No = Nx * Ny * Nz := by exact_mod_cast c6
  have hdev : ∀ (a : Axis F) (k : Nat), trunc a.raw = some (k : Int) → k < 2147483648 →
      a.dev = .ok (k : Int) := by
    intro a k h1 h2
    unfold Axis.dev castInt int32
    rw [h1]
    simp only
    rw [if_pos]
    left
    simpa using h2
  have p : 0 < Nx * Ny * Nz := by omega
  have p4 : 0 < Nx := by
    rcases Nat.eq_zero_or_pos Nx with k | k
    · subst k; simp at p
    · exact k
  have p5 : 0 < Ny := by
    rcases Nat.eq_zero_or_pos Ny with k | k
    · subst k; simp at p
    · exact k
  have p6 : 0 < Nz := by
    rcases Nat.eq_zero_or_pos Nz with k | k
    · subst k; simp at p
    · exact k
  have b1 : Nx ≤ Nx * Ny * Nz :=
    (Nat.le_mul_of_pos_right _ p5).trans (Nat.le_mul_of_pos_right _ p6)
  have b2 : Ny ≤ Nx * Ny * Nz :=
    (Nat.le_mul_of_pos_left _ p4).trans (Nat.le_mul_of_pos_right _ p6)
  have b3 : Nz ≤ Nx * Ny * Nz := Nat.le_mul_of_pos_left _ (Nat.mul_pos p4 p5)
  have hlen : 0 < A.len := by
    rcases Nat.eq_zero_or_pos A.len with k | k
    · rw [k] at c8; simp at c8; omega
    · exact k
  have pnt : 0 < nt := by
    rcases Nat.eq_zero_or_pos nt with k | k
    · rw [k] at c8; simp at c8; omega
    · exact k
  by_cases hm : m = .saft
  · rw [if_pos hm, mul_one] at c8
    have e : A.Y.size = A.len * nt := by exact_mod_cast c8
    have : nt ≤ A.len * nt := Nat.le_mul_of_pos_left _ hlen
    refine ⟨nt, 0, Nx, Ny, Nz, ⟨hdev _ _ c1 (by omega), fun k => absurd hm k, hdev _ _ c3 (by omega),
      hdev _ _ c4 (by omega), hdev _ _ c5 (by omega), ⟨fun _ => rfl, fun _ => hm⟩, pnt⟩, hNo, h.image, ?_⟩
    unfold uniScans
    rw [if_pos hm, e, Nat.mul_comm]
  · rw [if_neg hm] at c8
    have pl : (0 : Int) < (A.len : Int) * nt := by positivity
    have hnr : 0 < nr := by
      by_contra k
      have : (A.len : Int) * nt * nr ≤ 0 := mul_nonpos_of_nonneg_of_nonpos pl.le (by omega)
      omega
    lift nr to ℕ using hnr.le
    have e : A.Y.size = A.len * nt * nr := by exact_mod_cast c8
    have pnr : 0 < nr := by exact_mod_cast hnr
    have pl' : 0 < A.len * nt := Nat.mul_pos hlen pnt
    have b4 : nr ≤ A.len * nt * nr := Nat.le_mul_of_pos_left _ pl'
    have b5 : nt ≤ A.len * nt * nr :=
      (Nat.le_mul_of_pos_left _ hlen).trans (Nat.le_mul_of_pos_right _ pnr)
    refine ⟨nt, nr, Nx, Ny, Nz, ⟨hdev _ _ c1 (by omega), fun _ => hdev _ _ c2 (by omega),
      hdev _ _ c3 (by omega), hdev _ _ c4 (by omega), hdev _ _ c5 (by omega),
      ⟨fun k => absurd k hm, fun k => by omega⟩, pnt⟩, hNo, h.image, ?_⟩
    unfold uniScans
    rw [if_neg hm, e]
    ring

/-! ### C62: SAFT with an empty receive array -/

/-- C62 (violated): an accepted call whose receive array is empty, as documented for SAFT, always
converts `0/0 + 1` to an integer, which is undefined: for every session, front end, method, geometry. -/
theorem C62_empty_receive (fe : FrontEnd) (hfe : fe.mo) (hist : List (Bool × UniIn F)) (i : Bool)
    (x : UniIn F) (ht : x.Typed) (j : UniJob F) (hj : frontUni fe x = .ok (.call j))
    (hg : x.gr.size = 0) (hnan : trunc ((lit 0 -. lit 0 : F) /. lit 0 +. lit 1) = none) :
    (uniCall fe (uniSession fe hist) (i, x)).2 = .ub .cast := by
  have hp := frontUni_call hfe ht hj
  rw [uniCall_call (e := (i, x)) hj, UniJob.call_out]
  have hrx : j.rx.host fe.idx = .ub .cast := by
    rcases hp.rx with ⟨k, _⟩ | ⟨_, k⟩
    · omega
    · rw [k]
      unfold Axis.host Axis.raw castIdx
      simp only [hnan]
  unfold UniGeo.counts
  have : j.tx.host fe.idx = .ub .cast ∨ ∃ n, j.tx.host fe.idx = .ok n := by
    unfold Axis.host castIdx
    split
    · split
      · exact .inr ⟨_, rfl⟩
      · exact .inl rfl
    · exact .inl rfl
  rcases this with k | ⟨n, k⟩
  · rw [k]; rfl
  · rw [k, Outcome.ok_bind, hrx]; rfl

/-- C62: with a receive array of three numbers whose interval is not empty SAFT does not look at it: two
calls that differ only in it launch the same kernel on the same data. -/
theorem C62_receive_unused (A : UniArgs F) (r : Axis F) (no : Nat) :
    uniItems .saft { A with rx := r } no = uniItems .saft A no := rfl

/-! ### C63: the shape of the image grid -/

omit [Arith F] in
theorem readAxis_short {a : Arg F} {i j k : Nat} (h : a.size ≤ k) :
    readAxis a.buf i j k = .ub .oob := by
  have hk : ∀ q : Nat, a.size ≤ q → a.buf.read (q : Int) = .ub .oob := by
    intro q hq
    unfold Buf.read
    rw [if_neg]
    rintro ⟨_, h2⟩
    have : (q : Int) < a.size := h2
    omega
  have hk' : ∀ q : Nat, a.buf.read (q : Int) = .ub .oob ∨ ∃ v, a.buf.read (q : Int) = .ok v := by
    intro q
    unfold Buf.read
    split
    · exact .inr ⟨_, rfl⟩
    · exact .inl rfl
  unfold readAxis
  rcases hk' i with g | ⟨v, g⟩
  · rw [g]; rfl
  rw [g, Outcome.ok_bind]
  rcases hk' j with g | ⟨v, g⟩
  · rw [g]; rfl
  rw [g, Outcome.ok_bind, hk k h]
  rfl

/-- C63 (violated): MATLAB does not look at the number of rows of the grid matrix: with fewer than three
the grid is read beyond its end, for every call that gets so far. -/
theorem C63_few_rows (hist : List (Bool × UniIn F)) (i : Bool) (x : UniIn F) (ht : x.Typed)
    (hs : x.sameType = true) (hgt : x.gt.size = 3) (hgr : x.gr.size = 3) (r : Nat) (hr : r < 3)
    (hg : x.grid.shape = [r, 3]) :
    (uniCall .matlab (uniSession .matlab hist) (i, x)).2 = .ub .oob := by
  have : frontUni .matlab x = .ub .oob := by
    unfold frontUni
    obtain ⟨y1, y2, hy⟩ := ht.y
    rw [if_neg (by rw [hs]; simp), Arg.dim_zero hy, Outcome.ok_bind]
    obtain ⟨t1, t2, ht'⟩ := ht.gt
    obtain ⟨r1, r2, hr'⟩ := ht.gr
    unfold txArg
    rw [Arg.dim_zero ht', Arg.dim_one ht', Outcome.ok_bind, Outcome.ok_bind, ← Arg.size_eq ht',
      if_neg (by simp [hgt]), readAxis_ok hgt (by omega) (by omega) (by omega), Outcome.ok_bind]
    unfold rxArg
    rw [Arg.dim_zero hr', Arg.dim_one hr', Outcome.ok_bind, Outcome.ok_bind, ← Arg.size_eq hr']
    rw [if_pos (by
      have hz := Arg.size_eq hr'
      rw [hgr] at hz
      rw [if_pos rfl]
      rintro rfl; omega)]
    rw [if_neg (by simp [hgr]), readAxis_ok hgr (by omega) (by omega) (by omega), Outcome.ok_bind]
    have hg9 : x.grid.size = r * 3 := Arg.size_eq hg
    unfold gridArg
    rw [Arg.dim_zero hg, Arg.dim_one hg, Outcome.ok_bind, Outcome.ok_bind, if_neg (by simp),
      readAxis_short (by omega)]
    rfl
  unfold uniCall
  simp only [this]

/-- C63 (violated): with more than three rows MATLAB takes the first nine entries of the matrix, by
columns, for the grid: the numbers of the first row are not those of the x axis. -/
theorem C63_more_rows (st : UniStore) (i : Bool) (x : UniIn F) (r : Nat) (hr : 3 ≤ r)
    (hg : x.grid.shape = [r, 3]) :
    uniCall .matlab st (i, x) = uniCall .matlab st (i, { x with grid := ⟨[3, 3], x.grid.data⟩ }) := by
  have hg9 : 9 ≤ x.grid.size := by rw [Arg.size_eq hg]; omega
  have hg9' : (⟨[3, 3], x.grid.data⟩ : Arg F).size = 9 := rfl
  have e : ∀ (k : Axis F → Axis F → Axis F → Outcome (Front (UniJob F))),
      gridArg .matlab x.grid k = gridArg .matlab ⟨[3, 3], x.grid.data⟩ k := by
    intro k
    unfold gridArg
    rw [Arg.dim_zero hg, Arg.dim_one hg, Arg.dim_zero (m := 3) (n := 3) rfl,
      Arg.dim_one (m := 3) (n := 3) rfl]
    simp only [Outcome.ok_bind]
    rw [if_neg (by simp), if_neg (by simp)]
    rw [readAxis_ok rfl (by omega) (by omega) (by omega), readAxis_ok rfl (by omega) (by omega) (by omega),
      readAxis_ok rfl (by omega) (by omega) (by omega), readAxis_ok hg9' (by omega) (by omega) (by omega),
      readAxis_ok hg9' (by omega) (by omega) (by omega), readAxis_ok hg9' (by omega) (by omega) (by omega)]
  have : frontUni .matlab x = frontUni .matlab { x with grid := ⟨[3, 3], x.grid.data⟩ } := by
    unfold frontUni
    simp only [e]
  unfold uniCall
  simp only [this]

/-- C63: Octave refuses every grid matrix that is not 3 by 3. -/
theorem C63_octave (x : UniIn F) (ht : x.Typed) (hg : x.grid.shape ≠ [3, 3]) (j : UniJob F) :
    frontUni .octave x ≠ .ok (.call j) := by
  intro h
  obtain ⟨r, h1, _, h3⟩ := (frontUni_call (.inr rfl) ht h).grid
  rw [h3 rfl] at h1
  exact hg h1

theorem gridArg_refused {α : Type} {fe : FrontEnd} {a : Arg F} {m n : Nat} (hs : a.shape = [m, n])
    (hb : n ≠ 3 ∨ fe ≠ .matlab ∧ m ≠ 3) (k : Axis F → Axis F → Axis F → Outcome (Front α)) :
    gridArg fe a k = .ok (.rejected true) := by
  unfold gridArg
  rw [Arg.dim_zero hs, Outcome.ok_bind, Arg.dim_one hs, Outcome.ok_bind, if_pos hb]

/-- C64: a call that mixes precisions, or gives a transmit array of other than three entries, or a matrix of
grid data without three columns (in Octave also: without three rows), the arguments before it being as
documented, is refused with a message and leaves the state of the session alone. -/
theorem C64_refused (fe : FrontEnd) (hfe : fe.mo) (st : UniStore) (i : Bool) (x : UniIn F) (ht : x.Typed) :
    (x.sameType = false → uniCall fe st (i, x) = (st, .ok (.rejected true))) ∧
    (x.sameType = true → x.gt.size ≠ 3 → uniCall fe st (i, x) = (st, .ok (.rejected true))) ∧
    (∀ m n, x.sameType = true → x.gt.size = 3 → x.gr.size = 3 → x.grid.shape = [m, n] →
      (n ≠ 3 ∨ fe = .octave ∧ m ≠ 3) → uniCall fe st (i, x) = (st, .ok (.rejected true))) := by
  obtain ⟨y1, y2, hy⟩ := ht.y
  obtain ⟨g1, g2, hg⟩ := ht.gt
  obtain ⟨r1, r2, hr⟩ := ht.gr
  have call : ∀ b, frontUni fe x = .ok (.rejected b) → uniCall fe st (i, x) = (st, .ok (.rejected b)) := by
    intro b h
    unfold uniCall
    rw [h]
  refine ⟨fun h => call _ ?_, fun h h3 => call _ ?_, fun m n h1 h2 h3 hs hb => call _ ?_⟩
  · unfold frontUni
    rw [if_pos h]
  · unfold frontUni
    rw [if_neg (by rw [h]; simp), Arg.dim_zero hy, Outcome.ok_bind]
    unfold txArg
    rw [Arg.dim_zero hg, Outcome.ok_bind, Arg.dim_one hg, Outcome.ok_bind, if_pos]
    simpa [Arg.size, hg] using h3
  · have e2 : g1 * g2 = 3 := by simpa [Arg.size, hg] using h2
    have e3 : r1 * r2 = 3 := by simpa [Arg.size, hr] using h3
    have hr2 : r2 ≠ 0 := by rintro rfl; simp at e3
    have hb' : n ≠ 3 ∨ fe ≠ .matlab ∧ m ≠ 3 := hb.imp_right fun ⟨a, b⟩ => ⟨by rw [a]; simp, b⟩
    unfold frontUni
    rw [if_neg (by rw [h1]; simp), Arg.dim_zero hy, Outcome.ok_bind]
    unfold txArg
    rw [Arg.dim_zero hg, Outcome.ok_bind, Arg.dim_one hg, Outcome.ok_bind, if_neg (by simp [e2]),
      readAxis_ok h2 (by omega) (by omega) (by omega), Outcome.ok_bind]
    unfold rxArg
    rw [Arg.dim_zero hr, Outcome.ok_bind, Arg.dim_one hr, Outcome.ok_bind,
      if_pos (by split <;> simp [e3, hr2]), if_neg (by simp [e3]),
      readAxis_ok h3 (by omega) (by omega) (by omega), Outcome.ok_bind]
    exact gridArg_refused hs hb' _

/-! ### Examples -/

section Example

attribute [local instance] toyArith

/-- Total focusing: transmitters at 0, 3 on the x axis, receiver at 0, a 4 by 4 by 4 grid of image points,
two A-scans of 100 samples. -/
def exUni : UniIn Int where
  y := ⟨[100, 2], fun i => i⟩
  gt := ⟨[1, 3], fun i => [0, 3, 3].getD i 0⟩
  gr := ⟨[1, 3], fun i => [0, 1, 0].getD i 0⟩
  grid := ⟨[3, 3], fun i => [0, 1, 2, 2, 3, 1, 6, 10, 5].getD i 0⟩
  dt := ⟨[1, 1], fun _ => 1⟩
  delay := ⟨[1, 1], fun _ => 0⟩
  cp := ⟨[1, 1], fun _ => 1⟩
  method := .text "tfm"
  single := false
  sameType := true
  shared := true
  delayShared := true

theorem exUni_doc : UniDoc .matlab exUni .tfm 100 2 2 1 4 4 4 :=
  ⟨⟨⟨_, _, rfl⟩, ⟨_, _, rfl⟩, ⟨_, _, rfl⟩, ⟨_, _, rfl⟩, ⟨_, _, rfl⟩, ⟨_, _, rfl⟩, ⟨_, _, rfl⟩⟩, rfl, rfl, rfl,
    rfl, rfl, rfl, rfl, .inl rfl, ⟨"tfm", rfl, .tfm⟩, rfl, rfl, rfl, rfl, rfl, by decide, by decide,
    fun h => by simp at h⟩

-- C64: with two entries for the transmit array, or mixed precisions, or a 3 by 2 matrix, it is refused
example (st : UniStore) :
    uniCall .matlab st (true, { exUni with gt := ⟨[1, 2], fun _ => 0⟩ }) = (st, .ok (.rejected true)) ∧
    uniCall .matlab st (true, { exUni with sameType := false }) = (st, .ok (.rejected true)) ∧
    uniCall .matlab st (true, { exUni with grid := ⟨[3, 2], fun _ => 0⟩ }) = (st, .ok (.rejected true)) := by
  have t := exUni_doc.typed
  exact ⟨(C64_refused .matlab (.inl rfl) st true { exUni with gt := ⟨[1, 2], fun _ => 0⟩ }
      ⟨t.y, ⟨_, _, rfl⟩, t.gr, t.grid, t.dt, t.cp, t.delay⟩).2.1 rfl (by decide),
    (C64_refused .matlab (.inl rfl) st true { exUni with sameType := false }
      ⟨t.y, t.gt, t.gr, t.grid, t.dt, t.cp, t.delay⟩).1 rfl,
    (C64_refused .matlab (.inl rfl) st true { exUni with grid := ⟨[3, 2], fun _ => 0⟩ }
      ⟨t.y, t.gt, t.gr, ⟨_, _, rfl⟩, t.dt, t.cp, t.delay⟩).2.2 3 2 rfl exUni_doc.gt exUni_doc.gr rfl
      (.inl (by decide))⟩

-- C64: after any session this call is launched as asked; C61 applies to it
example (hist : List (Bool × UniIn Int)) : ∃ A No imLen,
    (uniCall .matlab (uniSession .matlab hist) (true, exUni)).2 = .ok (.launch .tfm A No imLen) ∧
    UniLaunch exUni .tfm A No imLen := by
  obtain ⟨A, No, imLen, h⟩ := C64_accepted .matlab (.inl rfl) hist exUni _ _ _ _ _ _ _ _ exUni_doc (by decide)
  exact ⟨A, No, imLen, h, C64_launch _ (.inl rfl) hist true exUni exUni_doc.typed _ _ _ _ h⟩

-- C64: with one A-scan instead of two the data are read beyond their end
example (hist : List (Bool × UniIn Int)) :
    (uniCall .matlab (uniSession .matlab hist) (true, { exUni with y := ⟨[100, 1], fun i => (i : Int)⟩ })).2 =
      .ub .oob :=
  C64_too_few .matlab (.inl rfl) hist _ .tfm 100 1 2 1 4 4 4
    ⟨⟨⟨_, _, rfl⟩, exUni_doc.typed.gt, exUni_doc.typed.gr, exUni_doc.typed.grid, exUni_doc.typed.dt,
      exUni_doc.typed.cp, exUni_doc.typed.delay⟩, rfl, rfl, rfl, rfl, rfl, rfl, rfl, .inl rfl,
      exUni_doc.method, rfl, rfl, rfl, rfl, rfl, by decide, by decide, fun h => by simp at h⟩ (by decide)

-- C63: two rows
example (hist : List (Bool × UniIn Int)) (i : Bool) :
    (uniCall .matlab (uniSession .matlab hist) (i, { exUni with grid := ⟨[2, 3], fun i => (i : Int)⟩ })).2 =
      .ub .oob :=
  C63_few_rows hist i _ ⟨exUni_doc.typed.y, exUni_doc.typed.gt, exUni_doc.typed.gr, ⟨_, _, rfl⟩,
    exUni_doc.typed.dt, exUni_doc.typed.cp, exUni_doc.typed.delay⟩ rfl rfl rfl 2 (by omega) rfl

-- C63: four rows, the first three of which are the grid of `exUni`: the x axis is taken to be 0, 1, 1
-- instead of 0, 2, 6
example : ∃ A No imLen, (uniCall .matlab ⟨none, none⟩ (true, { exUni with
      grid := ⟨[4, 3], fun i => [0, 1, 2, 1, 2, 3, 1, 9, 6, 10, 5, 9].getD i (0 : Int)⟩ })).2 =
      .ok (.launch .tfm A No imLen) ∧ A.ix = ⟨0, 1, 1⟩ := by
  refine ⟨_, _, _, rfl, ?_⟩
  rfl

end Example

section ExampleNaN

/-- Integer arithmetic in which division by zero has no value. -/
@[reducible] def nanArith : Arith (Option Int) where
  lit q := some (q.num / q.den)
  ofInt i := some i
  pi := some 3
  add a b := a.bind fun a => b.map fun b => a + b
  sub a b := a.bind fun a => b.map fun b => a - b
  mul a b := a.bind fun a => b.map fun b => a * b
  div a b := a.bind fun a => b.bind fun b => if b = 0 then none else some (a / b)
  neg a := a.map fun a => -a
  sqrt a := a
  abs a := a
  sin a := a
  cos a := a
  asin a := a
  acos a := a
  atan a := a
  exp a := a
  log a := a
  le a b := match a, b with | some a, some b => decide (a ≤ b) | _, _ => false
  lt a b := match a, b with | some a, some b => decide (a < b) | _, _ => false
  eq a b := match a, b with | some a, some b => decide (a = b) | _, _ => false
  rint a := a
  trunc a := a

attribute [local instance] nanArith

/-- SAFT as documented: an empty receive array. -/
def exUniSaft : UniIn (Option Int) where
  y := ⟨[100, 2], fun i => some i⟩
  gt := ⟨[1, 3], fun i => some ([0, 3, 3].getD i 0)⟩
  gr := ⟨[0, 0], fun _ => none⟩
  grid := ⟨[3, 3], fun i => some ([0, 1, 2, 2, 3, 1, 6, 10, 5].getD i 0)⟩
  dt := ⟨[1, 1], fun _ => some 1⟩
  delay := ⟨[1, 1], fun _ => some 0⟩
  cp := ⟨[1, 1], fun _ => some 1⟩
  method := .text "saft"
  single := false
  sameType := true
  shared := true
  delayShared := true

-- C62: accepted by the wrapper, and undefined whatever was called before
example (hist : List (Bool × UniIn (Option Int))) (i : Bool) :
    (uniCall .matlab (uniSession .matlab hist) (i, exUniSaft)).2 = .ub .cast := by
  have hj : ∃ j, frontUni .matlab exUniSaft = .ok (.call j) := ⟨_, rfl⟩
  obtain ⟨j, hj⟩ := hj
  exact C62_empty_receive .matlab (.inl rfl) hist i exUniSaft
    ⟨⟨_, _, rfl⟩, ⟨_, _, rfl⟩, ⟨_, _, rfl⟩, ⟨_, _, rfl⟩, ⟨_, _, rfl⟩, ⟨_, _, rfl⟩, ⟨_, _, rfl⟩⟩ j hj rfl rfl

end ExampleNaN

end Dream
