import Mathlib.Data.Nat.Notation
import Verif.HeapUse

/-
C95: the memory that calls keep.
-/

namespace Dream
open HM

/-- A consistent heap: live blocks have been requested. -/
def Heap.Wf (h : Heap) : Prop := ∀ p ∈ h.live, p.1 < h.next

/-- From `h` to `h'`: the blocks of `A` are new and live, all other blocks are as before. -/
structure Heap.Grows (h h' : Heap) (A : List (Nat × Blk)) : Prop where
  live : h'.live = A ++ h.live
  fresh : ∀ p ∈ A, h.next ≤ p.1 ∧ p.1 < h'.next
  next : h.next ≤ h'.next

theorem Heap.Grows.wf {h h' : Heap} {A} (g : h.Grows h' A) (w : h.Wf) : h'.Wf := by
  intro p hp
  rw [g.live, List.mem_append] at hp
  rcases hp with hp | hp
  · exact (g.fresh p hp).2
  · exact Nat.lt_of_lt_of_le (w p hp) g.next

theorem Heap.Grows.refl (h : Heap) : h.Grows h [] := ⟨rfl, nofun, Nat.le_refl _⟩

theorem Heap.Grows.trans {h h' h'' : Heap} {A B} (a : h.Grows h' A) (b : h'.Grows h'' B) :
    h.Grows h'' (B ++ A) := by
  refine ⟨by rw [b.live, a.live, List.append_assoc], fun p hp => ?_, Nat.le_trans a.next b.next⟩
  rcases List.mem_append.1 hp with hp | hp
  · have := b.fresh p hp; have := a.next; omega
  · have := a.fresh p hp; have := b.next; omega

/-- All requests are granted: the code ends and leaves the blocks `L`. -/
def Leaves {α : Type} (m : HM α) (L : List Blk) : Prop :=
  ∀ h : Heap, h.Wf → ∃ a h' A, m (fun _ => true) h = (.ok a, h') ∧ h.Grows h' A ∧ A.map Prod.snd = L

/-- Whatever requests are refused: nothing is given back twice or by mistake, and blocks that were live before
stay live. -/
def OwnOnly {α : Type} (m : HM α) : Prop :=
  ∀ o (h : Heap), h.Wf → (m o h).1 ≠ .badFree ∧ ∃ A, h.Grows (m o h).2 A

/-- A pointer that may be given back: null or an own live block `A`. -/
theorem free_own (o : Nat → Bool) (h h' : Heap) (b : Blk) (A) (w : h.Wf)
    (g : Heap.Grows ⟨h.next + 1, (h.next, b) :: h.live⟩ h' A) :
    ∃ h'', free (some h.next) o h' = (.ok (), h'') ∧ h.Grows h'' A := by
  have hmem : h'.live.any (fun q => q.1 == h.next) = true := by
    rw [List.any_eq_true]
    exact ⟨(h.next, b), by rw [g.live]; simp, by simp⟩
  refine ⟨⟨h'.next, h'.live.filter fun q => q.1 != h.next⟩, ?_, ?_⟩
  · simp only [free, if_pos hmem]
  · refine ⟨?_, fun p hp => ?_, ?_⟩
    · show h'.live.filter _ = A ++ h.live
      rw [g.live, List.filter_append, List.filter_cons_of_neg (by simp)]
      congr 1
      · rw [List.filter_eq_self]
        intro p hp
        have := (g.fresh p hp).1
        simp only [bne_iff_ne, ne_eq]
        simp only at this
        omega
      · rw [List.filter_eq_self]
        intro p hp
        have := w p hp
        simp only [bne_iff_ne, ne_eq]
        omega
    · have := g.fresh p hp
      simp only at this ⊢
      omega
    · have := g.next
      simp only at this ⊢
      omega

namespace Leaves
variable {α β : Type}

theorem pure (a : α) : Leaves (HM.pure a) [] := fun h _ => ⟨a, h, [], rfl, .refl h, rfl⟩

theorem bind {m : HM α} {f : α → HM β} {L L' : List Blk} (hm : Leaves m L) (hf : ∀ a, Leaves (f a) L') :
    Leaves (m.bind f) (L' ++ L) := by
  intro h w
  obtain ⟨a, h1, A, e1, g1, l1⟩ := hm h w
  obtain ⟨b, h2, B, e2, g2, l2⟩ := hf a h1 (g1.wf w)
  refine ⟨b, h2, B ++ A, ?_, g1.trans g2, by rw [List.map_append, l1, l2]⟩
  simp only [HM.bind, e1, e2]

theorem seq {m : HM α} {f : α → HM β} {L : List Blk} (hm : Leaves m []) (hf : ∀ a, Leaves (f a) L) :
    Leaves (m.bind f) L := by
  have := bind hm hf
  rwa [List.append_nil] at this

/-- A request whose address is used by what follows. -/
theorem malloc_bind {b : Blk} {f : Option Nat → HM β} {L : List Blk} (hf : ∀ p, Leaves (f (some p)) L) :
    Leaves ((malloc b).bind f) (L ++ [b]) := by
  intro h w
  have g0 : h.Grows ⟨h.next + 1, (h.next, b) :: h.live⟩ [(h.next, b)] :=
    ⟨rfl, fun p hp => by simp at hp; subst hp; simp, Nat.le_succ _⟩
  obtain ⟨c, h2, B, e2, g2, l2⟩ := hf h.next _ (g0.wf w)
  refine ⟨c, h2, B ++ [(h.next, b)], ?_, g0.trans g2, by rw [List.map_append, l2]; rfl⟩
  simp only [HM.bind, malloc, if_true, e2]

theorem new_bind {b : Blk} {f : Nat → HM β} {L : List Blk} (hf : ∀ p, Leaves (f p) L) :
    Leaves ((new b).bind f) (L ++ [b]) := by
  have e : (new b).bind f = (malloc b).bind fun p => match p with | some p => f p | none => throw := by
    funext o h
    simp only [HM.bind, new, malloc]
    by_cases q : o h.next
    · simp only [if_pos q]; rfl
    · simp only [if_neg q]; rfl
  rw [e]
  exact malloc_bind hf

/-- A local block, used by the code it is local to. -/
theorem vector_used {b : Blk} {m : Option Nat → HM α} {L : List Blk} (hm : ∀ p, Leaves (m (some p)) L) :
    Leaves ((malloc b).bind fun p => local_ p (m p)) L := by
  intro h w
  have w1 : Heap.Wf ⟨h.next + 1, (h.next, b) :: h.live⟩ := by
    intro p hp
    rcases List.mem_cons.1 hp with rfl | hp
    · exact Nat.lt_succ_self _
    · exact Nat.lt_succ_of_lt (w p hp)
  obtain ⟨a, h1, A, e1, g1, l1⟩ := hm h.next _ w1
  obtain ⟨h2, e2, g2⟩ := free_own (fun _ => true) h h1 b A w g1
  refine ⟨a, h2, A, ?_, g2, l1⟩
  simp only [HM.bind, malloc, if_true, local_, e1, e2]
  rfl

/-- A local block. -/
theorem vector {b : Blk} {m : HM α} {L : List Blk} (hm : Leaves m L) :
    Leaves ((malloc b).bind fun p => local_ p m) L := vector_used fun _ => hm

theorem vectors {m : HM α} {L : List Blk} (hm : Leaves m L) : ∀ l, Leaves (HM.vectors l m) L
  | [] => hm
  | _ :: l => vector (vectors hm l)

theorem scratch (u : Bool) {m : HM Unit} {L : List Blk} (hm : Leaves m L) : ∀ l, Leaves (Dream.scratch u l m) L := by
  intro l
  induction l generalizing m with
  | nil => exact hm
  | cons b l ih =>
    have h : ∀ p : ℕ, Leaves (Dream.scratch u l ((if u then HM.use (some p) else HM.pure ()).bind fun _ => m)) L := by
      intro p
      refine ih (seq ?_ fun _ => hm)
      cases u
      · exact .pure ()
      · exact fun h _ => ⟨(), h, [], rfl, .refl h, rfl⟩
    intro h0 w
    exact vector_used h h0 w

theorem unique {b : Blk} {m : HM α} {L : List Blk} (hm : Leaves m L) :
    Leaves ((new b).bind fun p => local_ (some p) m) L := by
  have e : ((new b).bind fun p => local_ (some p) m) =
      (malloc b).bind fun p => match p with | some p => local_ (some p) m | none => throw := by
    funext o h
    simp only [HM.bind, new, malloc]
    by_cases q : o h.next
    · simp only [if_pos q]; rfl
    · simp only [if_neg q]; rfl
  intro h w
  obtain ⟨a, h', A, e1, r⟩ := vector (b := b) hm h w
  refine ⟨a, h', A, ?_, r⟩
  rw [e]
  simpa only [HM.bind, malloc, if_true] using e1

theorem uniques {m : HM α} {L : List Blk} (hm : Leaves m L) : ∀ l, Leaves (HM.uniques l m) L
  | [] => hm
  | _ :: l => unique (uniques hm l)

theorem forN {f : Nat → HM Unit} (hf : ∀ i, Leaves (f i) []) : ∀ c i, Leaves (HM.forN f c i) []
  | 0, _ => pure ()
  | c + 1, i => seq (hf i) fun _ => forN hf c (i + 1)

theorem use (p : Nat) : Leaves (HM.use (some p)) [] := fun h _ => ⟨(), h, [], rfl, .refl h, rfl⟩

/-- A block that is requested at the beginning and given back later. -/
theorem hold {b : Blk} {m : Option Nat → HM Unit} {g : HM α} {L L' : List Blk} (hm : ∀ p, Leaves (m (some p)) L)
    (hg : Leaves g L') :
    Leaves ((malloc b).bind fun p => (m p).bind fun _ => (free p).bind fun _ => g) (L' ++ L) := by
  intro h w
  have w1 : Heap.Wf ⟨h.next + 1, (h.next, b) :: h.live⟩ := by
    intro p hp
    rcases List.mem_cons.1 hp with rfl | hp
    · exact Nat.lt_succ_self _
    · exact Nat.lt_succ_of_lt (w p hp)
  obtain ⟨a, h1, A, e1, g1, l1⟩ := hm h.next _ w1
  obtain ⟨h2, e2, g2⟩ := free_own (fun _ => true) h h1 b A w g1
  obtain ⟨c, h3, B, e3, g3, l3⟩ := hg h2 (g2.wf w)
  refine ⟨c, h3, B ++ A, ?_, g2.trans g3, by rw [List.map_append, l1, l3]⟩
  simp only [HM.bind, malloc, if_true, e1, e2, e3]

end Leaves

/-- All requests are granted: the code ends with an error and leaves the blocks `L`. -/
def Breaks {α : Type} (m : HM α) (L : List Blk) : Prop :=
  ∀ h : Heap, h.Wf → ∃ h' A, m (fun _ => true) h = (.thrown, h') ∧ h.Grows h' A ∧ A.map Prod.snd = L

namespace Breaks
variable {α β : Type}

theorem throw : Breaks (HM.throw : HM α) [] := fun h _ => ⟨h, [], rfl, .refl h, rfl⟩

theorem bind {m : HM α} {f : α → HM β} {L L' : List Blk} (hm : Leaves m L) (hf : ∀ a, Breaks (f a) L') :
    Breaks (m.bind f) (L' ++ L) := by
  intro h w
  obtain ⟨a, h1, A, e1, g1, l1⟩ := hm h w
  obtain ⟨h2, B, e2, g2, l2⟩ := hf a h1 (g1.wf w)
  refine ⟨h2, B ++ A, ?_, g1.trans g2, by rw [List.map_append, l1, l2]⟩
  simp only [HM.bind, e1, e2]

theorem malloc_bind {b : Blk} {f : Option Nat → HM β} {L : List Blk} (hf : ∀ p, Breaks (f (some p)) L) :
    Breaks ((malloc b).bind f) (L ++ [b]) := by
  intro h w
  have g0 : h.Grows ⟨h.next + 1, (h.next, b) :: h.live⟩ [(h.next, b)] :=
    ⟨rfl, fun p hp => by simp at hp; subst hp; simp, Nat.le_succ _⟩
  obtain ⟨h2, B, e2, g2, l2⟩ := hf h.next _ (g0.wf w)
  refine ⟨h2, B ++ [(h.next, b)], ?_, g0.trans g2, by rw [List.map_append, l2]; rfl⟩
  simp only [HM.bind, malloc, if_true, e2]

end Breaks

namespace OwnOnly
variable {α β : Type}

theorem pure (a : α) : OwnOnly (HM.pure a) := fun _ h _ => ⟨by rintro ⟨⟩, [], .refl h⟩
theorem throw : OwnOnly (HM.throw : HM α) := fun _ h _ => ⟨by rintro ⟨⟩, [], .refl h⟩

theorem bind {m : HM α} {f : α → HM β} (hm : OwnOnly m) (hf : ∀ a, OwnOnly (f a)) : OwnOnly (m.bind f) := by
  intro o h w
  obtain ⟨n1, A, g1⟩ := hm o h w
  unfold HM.bind
  generalize m o h = r at n1 g1
  obtain ⟨e, h1⟩ := r
  cases e with
  | ok a =>
    obtain ⟨n2, B, g2⟩ := hf a o h1 (g1.wf w)
    exact ⟨n2, _, g1.trans g2⟩
  | thrown => exact ⟨by rintro ⟨⟩, A, g1⟩
  | null => exact ⟨by rintro ⟨⟩, A, g1⟩
  | badFree => exact absurd rfl n1
  | killed => exact ⟨by rintro ⟨⟩, A, g1⟩

theorem use (p : Option Nat) : OwnOnly (HM.use p) := fun o h _ => by
  cases p with
  | none => exact ⟨by rintro ⟨⟩, [], .refl h⟩
  | some p => exact ⟨by rintro ⟨⟩, [], .refl h⟩

theorem malloc (b : Blk) : OwnOnly (HM.malloc b) := fun o h _ => by
  unfold HM.malloc
  by_cases q : o h.next
  · rw [if_pos q]
    exact ⟨by rintro ⟨⟩, [(h.next, b)], rfl, fun p hp => by simp at hp; subst hp; simp, Nat.le_succ _⟩
  · rw [if_neg q]
    exact ⟨by rintro ⟨⟩, [], rfl, nofun, Nat.le_succ _⟩

theorem new (b : Blk) : OwnOnly (HM.new b) := bind (malloc b) fun p => by
  cases p with
  | none => exact throw
  | some p => exact pure p

theorem forN {f : Nat → HM Unit} (hf : ∀ i, OwnOnly (f i)) : ∀ c i, OwnOnly (HM.forN f c i)
  | 0, _ => pure ()
  | c + 1, i => bind (hf i) fun _ => forN hf c (i + 1)

theorem inThread {m : HM Unit} (hm : OwnOnly m) : OwnOnly (Dream.inThread m) := by
  intro o h w
  obtain ⟨n1, A, g1⟩ := hm o h w
  unfold Dream.inThread
  generalize m o h = r at n1 g1
  obtain ⟨e, h1⟩ := r
  cases e with
  | badFree => exact absurd rfl n1
  | _ => exact ⟨by rintro ⟨⟩, A, g1⟩

/-- A local block that is given back on every way out. -/
theorem vector {b : Blk} {m : Option Nat → HM α} (hm : ∀ p, OwnOnly (m p)) :
    OwnOnly ((HM.malloc b).bind fun p => local_ p (m p)) := by
  intro o h w
  simp only [HM.bind, HM.malloc]
  by_cases q : o h.next
  · simp only [if_pos q]
    have w1 : Heap.Wf ⟨h.next + 1, (h.next, b) :: h.live⟩ := by
      intro p hp
      rcases List.mem_cons.1 hp with rfl | hp
      · exact Nat.lt_succ_self _
      · exact Nat.lt_succ_of_lt (w p hp)
    obtain ⟨n1, A, g1⟩ := hm (some h.next) o _ w1
    unfold local_
    generalize m (some h.next) o _ = r at n1 g1
    obtain ⟨e, h1⟩ := r
    obtain ⟨h2, e2, g2⟩ := free_own o h h1 b A w g1
    have g0 : h.Grows h1 (A ++ [(h.next, b)]) := by
      refine ⟨by rw [g1.live]; simp, fun p hp => ?_, by have := g1.next; simp only at this; omega⟩
      rcases List.mem_append.1 hp with hp | hp
      · have := g1.fresh p hp; simp only at this; omega
      · simp at hp; subst hp; have := g1.next; simp only at this ⊢; omega
    cases e with
    | ok a => simp only [HM.bind, e2]; exact ⟨by rintro ⟨⟩, A, g2⟩
    | thrown => simp only [HM.bind, e2]; exact ⟨by rintro ⟨⟩, A, g2⟩
    | null => exact ⟨by rintro ⟨⟩, _, g0⟩
    | badFree => exact absurd rfl n1
    | killed => exact ⟨by rintro ⟨⟩, _, g0⟩
  · simp only [if_neg q]
    have g0 : h.Grows ⟨h.next + 1, h.live⟩ [] := ⟨rfl, nofun, Nat.le_succ _⟩
    obtain ⟨n1, A, g1⟩ := hm none o _ (g0.wf w)
    unfold local_
    generalize m none o _ = r at n1 g1
    obtain ⟨e, h1⟩ := r
    have g := g0.trans g1
    cases e with
    | ok a => exact ⟨by rintro ⟨⟩, _, g⟩
    | thrown => exact ⟨by rintro ⟨⟩, _, g⟩
    | null => exact ⟨by rintro ⟨⟩, _, g⟩
    | badFree => exact absurd rfl n1
    | killed => exact ⟨by rintro ⟨⟩, _, g⟩

theorem vectors {m : HM α} (hm : OwnOnly m) : ∀ l, OwnOnly (HM.vectors l m)
  | [] => hm
  | _ :: l => vector fun _ => vectors hm l

theorem scratch (u : Bool) {m : HM Unit} (hm : OwnOnly m) : ∀ l, OwnOnly (Dream.scratch u l m) := by
  intro l
  induction l generalizing m with
  | nil => exact hm
  | cons b l ih =>
    refine vector fun p => ih (bind ?_ fun _ => hm)
    cases u
    · exact pure ()
    · exact use p

theorem unique {b : Blk} {m : HM α} (hm : OwnOnly m) : OwnOnly ((HM.new b).bind fun p => local_ (some p) m) := by
  have e : ((HM.new b).bind fun p => local_ (some p) m) =
      (HM.malloc b).bind fun p => local_ p (match p with | some _ => m | none => HM.throw) := by
    funext o h
    simp only [HM.bind, HM.new, HM.malloc]
    by_cases q : o h.next
    · simp only [if_pos q]; rfl
    · simp only [if_neg q]; rfl
  rw [e]
  refine vector fun p => ?_
  cases p with
  | none => exact throw
  | some p => exact hm

theorem uniques {m : HM α} (hm : OwnOnly m) : ∀ l, OwnOnly (HM.uniques l m)
  | [] => hm
  | _ :: l => unique (uniques hm l)

/-- A block that is given back later, except after an error. -/
theorem hold {b : Blk} {m : Option Nat → HM Unit} {g : HM α} (hm : ∀ p, OwnOnly (m p)) (hg : OwnOnly g) :
    OwnOnly ((HM.malloc b).bind fun p => (m p).bind fun _ => (free p).bind fun _ => g) := by
  intro o h w
  simp only [HM.bind, HM.malloc]
  by_cases q : o h.next
  · simp only [if_pos q]
    have w1 : Heap.Wf ⟨h.next + 1, (h.next, b) :: h.live⟩ := by
      intro p hp
      rcases List.mem_cons.1 hp with rfl | hp
      · exact Nat.lt_succ_self _
      · exact Nat.lt_succ_of_lt (w p hp)
    obtain ⟨n1, A, g1⟩ := hm (some h.next) o _ w1
    generalize m (some h.next) o _ = r at n1 g1
    obtain ⟨e, h1⟩ := r
    obtain ⟨h2, e2, g2⟩ := free_own o h h1 b A w g1
    have g0 : h.Grows h1 (A ++ [(h.next, b)]) := by
      refine ⟨by rw [g1.live]; simp, fun p hp => ?_, by have := g1.next; simp only at this; omega⟩
      rcases List.mem_append.1 hp with hp | hp
      · have := g1.fresh p hp; simp only at this; omega
      · simp at hp; subst hp; have := g1.next; simp only at this ⊢; omega
    cases e with
    | ok a =>
      simp only [e2]
      obtain ⟨n3, B, g3⟩ := hg o h2 (g2.wf w)
      exact ⟨n3, _, g2.trans g3⟩
    | thrown => exact ⟨by rintro ⟨⟩, _, g0⟩
    | null => exact ⟨by rintro ⟨⟩, _, g0⟩
    | badFree => exact absurd rfl n1
    | killed => exact ⟨by rintro ⟨⟩, _, g0⟩
  · simp only [if_neg q]
    have g0 : h.Grows ⟨h.next + 1, h.live⟩ [] := ⟨rfl, nofun, Nat.le_succ _⟩
    obtain ⟨n1, A, g1⟩ := hm none o _ (g0.wf w)
    generalize m none o _ = r at n1 g1
    obtain ⟨e, h1⟩ := r
    have g := g0.trans g1
    cases e with
    | ok a =>
      simp only [free]
      obtain ⟨n3, B, g3⟩ := hg o h1 (g.wf w)
      exact ⟨n3, _, g.trans g3⟩
    | thrown => exact ⟨by rintro ⟨⟩, _, g⟩
    | null => exact ⟨by rintro ⟨⟩, _, g⟩
    | badFree => exact absurd rfl n1
    | killed => exact ⟨by rintro ⟨⟩, _, g⟩

end OwnOnly

/-! ### The functions -/

theorem HM.bind_assoc {α β γ : Type} (m : HM α) (f : α → HM β) (g : β → HM γ) :
    (m.bind f).bind g = m.bind fun a => (f a).bind g := by
  funext o h
  simp only [HM.bind]
  generalize m o h = r
  obtain ⟨e, h1⟩ := r
  cases e <;> rfl

theorem HM.bind_pure {α : Type} (m : HM α) : (m.bind fun a => HM.pure a) = m := by
  funext o h
  simp only [HM.bind]
  generalize m o h = r
  obtain ⟨e, h1⟩ := r
  cases e <;> rfl

theorem HM.bind_unit (m : HM Unit) : (m.bind fun _ => HM.pure ()) = m := HM.bind_pure m

theorem HM.pure_bind {α β : Type} (a : α) (f : α → HM β) : (HM.pure a).bind f = f a := rfl

theorem driverMem_eq (chk : NullCheck) (al : Bool) (nth : ℕ) (w : HM Unit) :
    driverMem chk false al nth w = (malloc (.jobs nth)).bind fun D =>
      (((if chk = NullCheck.error ∧ D = none then HM.throw else HM.pure ()).bind fun _ => (new (.threads nth)).bind fun _ =>
        HM.forN (fun _ => (use D).bind fun _ => startWorker (al || decide (1 < nth)) w) nth 0).bind
      fun _ => (free D).bind fun _ => HM.pure ()) := by
  unfold driverMem
  simp only [Bool.false_eq_true, if_false, HM.bind_assoc, HM.bind_unit]

theorem driverMem_first (chk : NullCheck) (al : Bool) (nth : ℕ) (w : HM Unit) :
    driverMem chk true al nth w = (new (.threads nth)).bind fun _ => (malloc (.jobs nth)).bind fun D =>
      (((if chk = NullCheck.error ∧ D = none then HM.throw else HM.pure ()).bind fun _ =>
        HM.forN (fun _ => (use D).bind fun _ => startWorker (al || decide (1 < nth)) w) nth 0).bind
      fun _ => (free D).bind fun _ => HM.pure ()) := by
  unfold driverMem
  simp only [if_true, HM.bind_assoc, HM.bind_unit, HM.pure_bind]

theorem inThread_leaves {m : HM Unit} {L : List Blk} (hm : Leaves m L) : Leaves (inThread m) L := by
  intro h w
  obtain ⟨a, h1, A, e, r⟩ := hm h w
  exact ⟨a, h1, A, by unfold inThread; rw [e], r⟩

theorem startWorker_leaves {w : HM Unit} (hw : Leaves w []) (t : Bool) : Leaves (startWorker t w) [] := by
  cases t
  · exact hw
  · exact .uniques (inThread_leaves hw) _

theorem driverMem_leaves (chk : NullCheck) (first al : Bool) (nth : ℕ) {w : HM Unit} (hw : Leaves w []) :
    Leaves (driverMem chk first al nth w) [.threads nth] := by
  have hf : ∀ p : ℕ, Leaves (HM.forN (fun _ => (use (some p)).bind fun _ =>
      startWorker (al || decide (1 < nth)) w) nth 0) [] := fun p =>
    .forN (fun _ => .seq (.use p) fun _ => startWorker_leaves hw _) _ _
  cases first
  · rw [driverMem_eq]
    refine Leaves.hold (L := [.threads nth]) (L' := []) (fun p => ?_) (.pure ())
    rw [if_neg (by rintro ⟨_, h⟩; cases h), HM.pure_bind]
    exact Leaves.new_bind (L := []) fun _ => hf p
  · rw [driverMem_first]
    refine Leaves.new_bind (L := []) fun _ => Leaves.hold (L := []) (L' := []) (fun p => ?_) (.pure ())
    rw [if_neg (by rintro ⟨_, h⟩; cases h), HM.pure_bind]
    exact hf p

theorem startWorker_tame {w : HM Unit} (hw : OwnOnly w) (t : Bool) : OwnOnly (startWorker t w) := by
  cases t
  · exact hw
  · exact .uniques (.inThread hw) _

theorem driverMem_tame (chk : NullCheck) (first al : Bool) (nth : ℕ) {w : HM Unit} (hw : OwnOnly w) :
    OwnOnly (driverMem chk first al nth w) := by
  have hf : ∀ p : Option ℕ, OwnOnly (HM.forN (fun _ => (use p).bind fun _ =>
      startWorker (al || decide (1 < nth)) w) nth 0) := fun p =>
    .forN (fun _ => .bind (.use p) fun _ => startWorker_tame hw _) _ _
  have hc : ∀ p : Option ℕ, OwnOnly (if chk = NullCheck.error ∧ p = none then HM.throw else HM.pure () : HM Unit) := fun p => by
    split
    · exact .throw
    · exact .pure ()
  cases first
  · rw [driverMem_eq]
    exact OwnOnly.hold (fun p => .bind (hc p) fun _ => .bind (.new _) fun _ => hf p) (.pure ())
  · rw [driverMem_first]
    exact .bind (.new _) fun _ => OwnOnly.hold (fun p => .bind (hc p) fun _ => hf p) (.pure ())

/-- The two plans of an `FFT` object. -/
def plans (len : ℕ) : List Blk := if planOk len then [.plan len, .plan len] else []

theorem fftPlans_leaves (len : ℕ) : Leaves (fftPlans len) (plans len) := by
  unfold fftPlans plans
  refine .vectors ?_ _
  split
  · exact Leaves.malloc_bind (L := [.plan len]) fun _ => Leaves.malloc_bind (L := []) fun _ => .pure ()
  · exact .pure ()

theorem fftPlans_tame (len : ℕ) : OwnOnly (fftPlans len) := by
  unfold fftPlans
  refine .vectors ?_ _
  split
  · exact .bind (.malloc _) fun _ => .bind (.malloc _) fun _ => .pure ()
  · exact .pure ()

theorem withAttenuation_leaves {nt : ℕ} {m : HM Unit} {L : List Blk} (hm : Leaves m L) :
    Leaves (withAttenuation nt m) (L ++ plans nt) :=
  .uniques (.bind (fftPlans_leaves nt) fun _ => hm) _

theorem withAttenuation_tame {nt : ℕ} {m : HM Unit} (hm : OwnOnly m) : OwnOnly (withAttenuation nt m) :=
  .uniques (.bind (fftPlans_tame nt) fun _ => hm) _

theorem attScratch_leaves {att : Bool} {nt : ℕ} {m : HM Unit} (hm : Leaves m []) : Leaves (attScratch att nt m) [] := by
  unfold attScratch
  split
  · exact .uniques (.vectors (.uniques (.vectors hm _) _) _) _
  · exact hm

theorem attScratch_tame {att : Bool} {nt : ℕ} {m : HM Unit} (hm : OwnOnly m) : OwnOnly (attScratch att nt m) := by
  unfold attScratch
  split
  · exact .uniques (.vectors (.uniques (.vectors hm _) _) _) _
  · exact hm

theorem annuPoint_leaves (nt radii rings : ℕ) : Leaves (annuPoint nt radii rings) [] := by
  refine .uniques (.forN (fun _ => ?_) _ _) _
  have := Leaves.hold (b := .shift (2 * nt)) (m := fun p => if nt = 0 then HM.pure () else use p) (g := HM.pure ())
    (L := []) (L' := []) (fun p => by split; exact .pure (); exact .use p) (.pure ())
  simp only [HM.bind_unit] at this
  exact this

theorem annuPoint_tame (nt radii rings : ℕ) : OwnOnly (annuPoint nt radii rings) := by
  refine .uniques (.forN (fun _ => ?_) _ _) _
  have := OwnOnly.hold (b := .shift (2 * nt)) (m := fun p => if nt = 0 then HM.pure () else use p) (g := HM.pure ())
    (fun p => by split; exact .pure (); exact .use p) (.pure ())
  simpa only [HM.bind_unit] using this

theorem wisdomMem_leaves (asked : Bool) : Leaves (wisdomMem asked) (if asked then [.wisdom] else []) := by
  unfold wisdomMem
  split
  · exact Leaves.malloc_bind (L := []) fun p => .use p
  · exact .pure ()

theorem wisdomMem_tame (asked : Bool) : OwnOnly (wisdomMem asked) := by
  unfold wisdomMem
  split
  · exact .bind (.malloc _) fun _ => .use _
  · exact .pure ()

theorem ifPressed_tame {pressed raises : Bool} {m : HM Unit} (hm : OwnOnly m) : OwnOnly (ifPressed pressed raises m) := by
  unfold ifPressed
  split
  · split
    · exact .throw
    · exact .pure ()
  · exact hm

/-- Does the call end with an error although all requests are granted? -/
def MemCall.fails : MemCall → Bool
  | .fftconv _ _ _ pressed => pressed
  | .ola _ _ _ pressed => pressed
  | .sum _ _ _ _ pressed raises => pressed && raises
  | .refused _ _ => true
  | _ => false

/-- The blocks that stay after a call, the last one first. -/
def MemCall.lost : MemCall → List Blk
  | .sir _ nt nth => .threads nth :: plans nt
  | .array _ _ nt nth => .threads nth :: plans nt
  | .annular _ _ _ nt nth _ => .threads nth :: plans nt
  | .dreamAtt nt => plans nt
  | .das nth => [.threads nth]
  | .circ nth => [.threads nth]
  | .conv nth => [.threads nth]
  | .copy nth => [.threads nth]
  | .fftconv len nth asked pressed => (if asked && !pressed then [.wisdom] else []) ++ .threads nth :: plans len
  | .ola len nth asked pressed => (if asked && !pressed then [.wisdom] else []) ++ .threads nth :: plans len
  | .sum inputs len nth asked pressed _ =>
    if pressed then .threads nth :: (plans len ++ [.filters inputs])
    else (if asked then [.wisdom] else []) ++ .threads nth :: plans len
  | .refused filters len => plans len ++ match filters with | some n => [.filters n] | none => []

theorem driver_then (first : Bool) (len nth : ℕ) (asked pressed : Bool) {w : HM Unit} (hw : Leaves w []) :
    (pressed = false → Leaves ((fftPlans len).bind fun _ => (driverMem .error first false nth w).bind fun _ =>
      ifPressed pressed true (wisdomMem asked)) ((if asked then [.wisdom] else []) ++ .threads nth :: plans len)) ∧
    (pressed = true → Breaks ((fftPlans len).bind fun _ => (driverMem .error first false nth w).bind fun _ =>
      ifPressed pressed true (wisdomMem asked)) (.threads nth :: plans len)) := by
  constructor
  · rintro rfl
    have := Leaves.bind (fftPlans_leaves len) fun _ : Unit =>
      Leaves.bind (driverMem_leaves .error first false nth hw) fun _ => wisdomMem_leaves asked
    rw [List.append_assoc] at this
    exact this
  · rintro rfl
    exact Breaks.bind (L' := [.threads nth]) (fftPlans_leaves len) fun _ : Unit =>
      Breaks.bind (L' := []) (driverMem_leaves .error first false nth hw) fun _ => Breaks.throw

/-- The end of every call, and what it keeps, when all requests are granted. -/
theorem MemCall.keeps (c : MemCall) :
    (c.fails = false → Leaves c.run c.lost) ∧ (c.fails = true → Breaks c.run c.lost) := by
  have u : Leaves (HM.pure ()) [] := .pure ()
  cases c with
  | sir att nt nth =>
    exact ⟨fun _ => withAttenuation_leaves (driverMem_leaves _ _ _ _ (attScratch_leaves u)), nofun⟩
  | array att e nt nth =>
    exact ⟨fun _ => .uniques (withAttenuation_leaves (driverMem_leaves _ _ _ _ (attScratch_leaves u))) _, nofun⟩
  | annular att r e nt nth points =>
    exact ⟨fun _ => .uniques (withAttenuation_leaves (driverMem_leaves _ _ _ _ (attScratch_leaves
      (.forN (fun _ => annuPoint_leaves _ _ _) _ _)))) _, nofun⟩
  | dreamAtt nt => exact ⟨fun _ => withAttenuation_leaves (L := []) (.vectors u _), nofun⟩
  | das nth => exact ⟨fun _ => driverMem_leaves _ _ _ _ u, nofun⟩
  | circ nth => exact ⟨fun _ => driverMem_leaves _ _ _ _ u, nofun⟩
  | conv nth => exact ⟨fun _ => driverMem_leaves _ _ _ _ u, nofun⟩
  | copy nth => exact ⟨fun _ => driverMem_leaves _ _ _ _ u, nofun⟩
  | fftconv len nth asked pressed =>
    have h := driver_then false len nth asked pressed (.scratch (decide (1 ≤ len)) u (fftScratch len))
    refine ⟨fun e => ?_, fun e => ?_⟩
    · obtain rfl : pressed = false := e
      have := h.1 rfl
      simp only [MemCall.lost, Bool.not_false, Bool.and_true]
      exact this
    · obtain rfl : pressed = true := e
      have := h.2 rfl
      simp only [MemCall.lost, Bool.not_true, Bool.and_false]
      exact this
  | ola len nth asked pressed =>
    have h := driver_then true len nth asked pressed (.scratch (decide (1 ≤ len)) u (olaScratch len))
    refine ⟨fun e => ?_, fun e => ?_⟩
    · obtain rfl : pressed = false := e
      have := h.1 rfl
      simp only [MemCall.lost, Bool.not_false, Bool.and_true]
      exact this
    · obtain rfl : pressed = true := e
      have := h.2 rfl
      simp only [MemCall.lost, Bool.not_true, Bool.and_false]
      exact this
  | sum inputs len nth asked pressed raises =>
    have hd := driverMem_leaves .error false false nth (Leaves.scratch (decide (1 ≤ len)) u (fftScratch len))
    have hu : ∀ p : ℕ, Leaves (HM.forN (fun _ => use (some p)) inputs 0) [] := fun p => .forN (fun _ => .use p) _ _
    cases pressed with
    | false =>
      refine ⟨fun _ => ?_, fun e => by simp [MemCall.fails] at e⟩
      have := Leaves.hold (b := .filters inputs)
        (m := fun H => (HM.forN (fun _ => use H) inputs 0).bind fun _ => (fftPlans len).bind fun _ =>
          driverMem .error false false nth (scratch (decide (1 ≤ len)) (fftScratch len) (HM.pure ())))
        (g := wisdomMem asked) (L := .threads nth :: plans len) (L' := if asked then [.wisdom] else [])
        (fun p => .seq (hu p) fun _ => Leaves.bind (L' := [.threads nth]) (fftPlans_leaves len) fun _ => hd)
        (wisdomMem_leaves asked)
      simp only [HM.bind_assoc] at this
      simpa [MemCall.lost, MemCall.run, sumMem, ifPressed] using this
    | true =>
      cases raises with
      | true =>
        refine ⟨fun e => by simp [MemCall.fails] at e, fun _ => ?_⟩
        have := Breaks.malloc_bind (b := .filters inputs) (L := .threads nth :: plans len) (f := fun H =>
          (HM.forN (fun _ => use H) inputs 0).bind fun _ => (fftPlans len).bind fun _ =>
          (driverMem .error false false nth (scratch (decide (1 ≤ len)) (fftScratch len) (HM.pure ()))).bind fun _ =>
          (HM.throw : HM Unit)) (fun p => by
            have h1 := Breaks.bind (hu p) fun _ => Breaks.bind (L' := [.threads nth]) (fftPlans_leaves len)
              fun _ : Unit => Breaks.bind (L' := []) hd fun _ => (Breaks.throw : Breaks (HM.throw : HM Unit) [])
            rwa [List.append_nil] at h1)
        exact this
      | false =>
        refine ⟨fun _ => ?_, fun e => by simp [MemCall.fails] at e⟩
        have := Leaves.malloc_bind (b := .filters inputs) (L := .threads nth :: plans len) (f := fun H =>
          (HM.forN (fun _ => use H) inputs 0).bind fun _ => (fftPlans len).bind fun _ =>
          (driverMem .error false false nth (scratch (decide (1 ≤ len)) (fftScratch len) (HM.pure ()))).bind fun _ =>
          HM.pure ()) (fun p => .seq (hu p) fun _ => Leaves.bind (L' := [.threads nth]) (fftPlans_leaves len)
            fun _ : Unit => Leaves.bind (L' := []) hd fun _ => .pure ())
        exact this
  | refused filters len =>
    refine ⟨nofun, fun _ => ?_⟩
    cases filters with
    | none =>
      have := Breaks.bind (L' := []) (fftPlans_leaves len) fun _ : Unit => (Breaks.throw : Breaks (HM.throw : HM Unit) [])
      simp only [MemCall.lost, List.append_nil]
      exact this
    | some n =>
      have := Breaks.malloc_bind (b := .filters n) (L := plans len) (f := fun H =>
        (HM.forN (fun _ => use H) n 0).bind fun _ => (fftPlans len).bind fun _ => (HM.throw : HM Unit)) (fun p => by
          have h1 := Breaks.bind (Leaves.forN (fun _ => Leaves.use p) n 0) fun _ => Breaks.bind (L' := [])
            (fftPlans_leaves len) fun _ : Unit => (Breaks.throw : Breaks (HM.throw : HM Unit) [])
          rwa [List.append_nil] at h1)
      show Breaks (refusedMem (some n) len) (plans len ++ [.filters n])
      unfold refusedMem
      simpa only [HM.bind_assoc] using this

theorem MemCall.tame (c : MemCall) : OwnOnly c.run := by
  have u : OwnOnly (HM.pure ()) := .pure ()
  cases c with
  | sir att nt nth => exact withAttenuation_tame (driverMem_tame _ _ _ _ (attScratch_tame u))
  | array att e nt nth => exact .uniques (withAttenuation_tame (driverMem_tame _ _ _ _ (attScratch_tame u))) _
  | annular att r e nt nth points =>
    exact .uniques (withAttenuation_tame (driverMem_tame _ _ _ _ (attScratch_tame
      (.forN (fun _ => annuPoint_tame _ _ _) _ _)))) _
  | dreamAtt nt => exact withAttenuation_tame (.vectors u _)
  | das nth => exact driverMem_tame _ _ _ _ u
  | circ nth => exact driverMem_tame _ _ _ _ u
  | conv nth => exact driverMem_tame _ _ _ _ u
  | copy nth => exact driverMem_tame _ _ _ _ u
  | fftconv len nth asked pressed =>
    exact .bind (fftPlans_tame len) fun _ => .bind (driverMem_tame _ _ _ _ (.scratch _ u _)) fun _ =>
      ifPressed_tame (wisdomMem_tame _)
  | ola len nth asked pressed =>
    exact .bind (fftPlans_tame len) fun _ => .bind (driverMem_tame _ _ _ _ (.scratch _ u _)) fun _ =>
      ifPressed_tame (wisdomMem_tame _)
  | sum inputs len nth asked pressed raises =>
    have hd := driverMem_tame .error false false nth (OwnOnly.scratch (decide (1 ≤ len)) u (fftScratch len))
    have hu : ∀ p, OwnOnly (HM.forN (fun _ => use p) inputs 0) := fun p => .forN (fun _ => .use p) _ _
    cases pressed with
    | false =>
      have := OwnOnly.hold (b := .filters inputs)
        (m := fun H => (HM.forN (fun _ => use H) inputs 0).bind fun _ => (fftPlans len).bind fun _ =>
          driverMem .error false false nth (scratch (decide (1 ≤ len)) (fftScratch len) (HM.pure ())))
        (g := wisdomMem asked) (fun p => .bind (hu p) fun _ => .bind (fftPlans_tame len) fun _ => hd)
        (wisdomMem_tame asked)
      simp only [HM.bind_assoc] at this
      simpa [MemCall.run, sumMem, ifPressed] using this
    | true =>
      refine .bind (.malloc _) fun p => .bind (hu p) fun _ => .bind (fftPlans_tame len) fun _ => .bind hd fun _ => ?_
      cases raises
      · exact .pure ()
      · exact .throw
  | refused filters len =>
    refine .bind ?_ fun _ => .bind (fftPlans_tame len) fun _ => .throw
    cases filters with
    | none => exact u
    | some n => exact .bind (.malloc _) fun p => .forN (fun _ => .use p) _ _

/-- C95, a violation: what a call keeps, exactly.  When all requests for memory are granted, the blocks that are
live after a call are those that were live before, the array of thread objects, the plans of the FFT, the string with the
wisdom if it was asked for, and, for sum_fftconv ended by CTRL-C or refused late, the table of filters; no scratch
vector, job or other table stays. -/
theorem C95_call_keeps_violated (c : MemCall) (h : Heap) (w : h.Wf) :
    ∃ h' A, c.run (fun _ => true) h = (if c.fails then .thrown else .ok (), h') ∧
      h'.live = A ++ h.live ∧ A.map Prod.snd = c.lost := by
  cases e : c.fails
  · obtain ⟨_, h', A, e1, g, l⟩ := c.keeps.1 e h w
    exact ⟨h', A, e1, g.live, l⟩
  · obtain ⟨h', A, e1, g, l⟩ := c.keeps.2 e h w
    exact ⟨h', A, e1, g.live, l⟩

theorem session_leaves (cs : List MemCall) : Leaves (sessionMem cs) (cs.reverse.flatMap MemCall.lost) := by
  induction cs with
  | nil => exact .pure ()
  | cons c cs ih =>
    intro h w
    rw [List.reverse_cons, List.flatMap_append, List.flatMap_singleton]
    cases e : c.fails
    · obtain ⟨a, h1, A, e1, g1, l1⟩ := c.keeps.1 e h w
      obtain ⟨b, h2, B, e2, g2, l2⟩ := ih h1 (g1.wf w)
      refine ⟨b, h2, B ++ A, ?_, g1.trans g2, by rw [List.map_append, l1, l2]⟩
      simp only [sessionMem, e1, e2]
    · obtain ⟨h1, A, e1, g1, l1⟩ := c.keeps.2 e h w
      obtain ⟨b, h2, B, e2, g2, l2⟩ := ih h1 (g1.wf w)
      refine ⟨b, h2, B ++ A, ?_, g1.trans g2, by rw [List.map_append, l1, l2]⟩
      simp only [sessionMem, e1, e2]

/-- C95, a violation: a session of threaded calls keeps, for every call, at least one more block: the memory of the
process grows without bound although no result is kept. -/
theorem C95_session_grows_violated (cs : List MemCall) (hc : ∀ c ∈ cs, ∃ n, .threads n ∈ c.lost) (h : Heap) (w : h.Wf) :
    ∃ h', sessionMem cs (fun _ => true) h = (.ok (), h') ∧ h.live.length + cs.length ≤ h'.live.length := by
  obtain ⟨_, h', A, e, g, l⟩ := session_leaves cs h w
  refine ⟨h', e, ?_⟩
  rw [g.live, List.length_append, ← List.length_map (f := Prod.snd) (as := A), l, Nat.add_comm]
  refine Nat.add_le_add_right ?_ _
  clear l g e h' A w h
  induction cs with
  | nil => simp
  | cons c cs ih =>
    have := ih fun c hm => hc c (List.mem_cons_of_mem _ hm)
    obtain ⟨n, hn⟩ := hc c (by simp)
    have := List.length_pos_of_mem hn
    rw [List.reverse_cons, List.flatMap_append, List.flatMap_singleton, List.length_append, List.length_cons]
    omega

theorem session_tame (cs : List MemCall) : OwnOnly (sessionMem cs) := by
  induction cs with
  | nil => exact .pure ()
  | cons c cs ih =>
    intro o h w
    obtain ⟨n1, A, g1⟩ := c.tame o h w
    simp only [sessionMem]
    generalize c.run o h = r at n1 g1
    obtain ⟨e, h1⟩ := r
    obtain ⟨n2, B, g2⟩ := ih o h1 (g1.wf w)
    cases e with
    | ok a => exact ⟨n2, _, g1.trans g2⟩
    | thrown => exact ⟨n2, _, g1.trans g2⟩
    | null => exact ⟨by rintro ⟨⟩, _, g1⟩
    | badFree => exact absurd rfl n1
    | killed => exact ⟨by rintro ⟨⟩, _, g1⟩

/-- C95: whatever requests for memory are refused, in whatever session: nothing is given back twice, and nothing that
was live before the session is given back. -/
theorem C95_own_memory (cs : List MemCall) (granted : ℕ → Bool) (h : Heap) (w : h.Wf) :
    (sessionMem cs granted h).1 ≠ .badFree ∧ ∀ p ∈ h.live, p ∈ (sessionMem cs granted h).2.live := by
  obtain ⟨n, A, g⟩ := session_tame cs granted h w
  exact ⟨n, fun p hp => by rw [g.live]; exact List.mem_append_right _ hp⟩

/-! ### Refused requests -/

/-- The number of requests before the jobs are requested. -/
def MemCall.before : MemCall → Option ℕ
  | .sir _ nt _ => some (3 + (plans nt).length)
  | .array _ _ nt _ => some (5 + (plans nt).length)
  | .annular _ _ _ nt _ _ => some (5 + (plans nt).length)
  | .das _ => some 0
  | .circ _ => some 0
  | _ => none

/-- The workers of a call. -/
def MemCall.workers : MemCall → ℕ
  | .sir _ _ nth => nth
  | .array _ _ _ nth => nth
  | .annular _ _ _ _ nth _ => nth
  | .das nth => nth
  | .circ nth => nth
  | _ => 0

theorem driver_null {al : Bool} {nth : ℕ} {w : HM Unit} (h1 : 1 ≤ nth) (o : ℕ → Bool) (h : Heap) (ho : o h.next = false)
    (ho' : o (h.next + 1) = true) : (driverMem .no false al nth w o h).1 = .null := by
  obtain ⟨k, rfl⟩ : ∃ k, nth = k + 1 := ⟨nth - 1, by omega⟩
  simp [driverMem, HM.bind, malloc, ho, new, ho', HM.pure, HM.forN, use]

theorem null_unique {b : Blk} {m : HM Unit} {o : ℕ → Bool} {h : Heap} (ho : o h.next = true)
    (hm : (m o ⟨h.next + 1, (h.next, b) :: h.live⟩).1 = .null) :
    (((new b).bind fun p => local_ (some p) m) o h).1 = .null := by
  simp only [HM.bind, new, malloc, if_pos ho, HM.pure, local_]
  generalize m o _ = r at hm
  obtain ⟨e, h1⟩ := r
  cases hm
  rfl

theorem fftPlans_next (nt : ℕ) (o : ℕ → Bool) (h : Heap) (ho : ∀ n, n < h.next + 2 + (plans nt).length → o n = true) :
    ∃ h', fftPlans nt o h = (.ok (), h') ∧ h'.next = h.next + 2 + (plans nt).length := by
  have h0 : o h.next = true := ho _ (by omega)
  have h1 : o (h.next + 1) = true := ho _ (by omega)
  by_cases q : planOk nt = true
  · have e : (plans nt).length = 2 := by unfold plans; rw [if_pos q]; rfl
    have h2 : o (h.next + 1 + 1) = true := ho _ (by omega)
    have h3 : o (h.next + 1 + 1 + 1) = true := ho _ (by omega)
    simp [fftPlans, HM.vectors, HM.bind, malloc, h0, h1, h2, h3, q, HM.pure, local_, free, e]
  · have e : (plans nt).length = 0 := by unfold plans; rw [if_neg q]; rfl
    simp [fftPlans, HM.vectors, HM.bind, malloc, h0, h1, q, HM.pure, local_, free, e]

theorem attenuation_null {nt : ℕ} {m : HM Unit} (o : ℕ → Bool) (h : Heap)
    (ho : ∀ n, n < h.next + 3 + (plans nt).length → o n = true)
    (hm : ∀ h' : Heap, h'.next = h.next + 3 + (plans nt).length → (m o h').1 = .null) :
    (withAttenuation nt m o h).1 = .null := by
  refine null_unique (ho _ (by omega)) ?_
  obtain ⟨h', e, n⟩ := fftPlans_next nt o ⟨h.next + 1, (h.next, .obj) :: h.live⟩
    (fun n hn => ho n (by simp only at hn; omega))
  show (((fftPlans nt).bind fun _ => m) o _).1 = _
  simp only [HM.bind, e]
  refine hm h' (n.trans ?_)
  show h.next + 1 + 2 + _ = _
  rfl

theorem Heap.Wf.cons {h : Heap} (w : h.Wf) (b : Blk) : Heap.Wf ⟨h.next + 1, (h.next, b) :: h.live⟩ := by
  intro p hp
  rcases List.mem_cons.1 hp with rfl | hp
  · exact Nat.lt_succ_self _
  · exact Nat.lt_succ_of_lt (w p hp)

/-- C95, a violation: the functions of single transducers, arrays and annular arrays, das, rect_sir, circ_sir and
scirc_sir: if just the request for the table of jobs is refused, the call writes through a null pointer. -/
theorem C95_out_of_memory_violated (c : MemCall) (k : ℕ) (hb : c.before = some k) (h1 : 1 ≤ c.workers) (h : Heap) (w : h.Wf)
    (granted : ℕ → Bool) (hg : ∀ n, granted n = true ↔ n ≠ h.next + k) : (c.run granted h).1 = .null := by
  have key : ∀ (nt : ℕ) (al : Bool) (nth : ℕ) (wk : HM Unit) (h' : Heap), h'.Wf → 1 ≤ nth →
      h'.next + (3 + (plans nt).length) = h.next + k →
      (withAttenuation nt (driverMem .no false al nth wk) granted h').1 = .null := by
    intro nt al nth wk h' w' hn e
    refine attenuation_null granted h' (fun n hn => (hg n).2 (by omega)) fun h'' e'' => ?_
    exact driver_null hn granted h'' (by rw [← Bool.not_eq_true, hg]; omega) ((hg _).2 (by omega))
  have two : ∀ (b b' : Blk) (m : HM Unit), 2 ≤ k → (∀ h' : Heap, h'.Wf → h'.next = h.next + 2 → (m granted h').1 = .null) →
      (HM.uniques [b, b'] m granted h).1 = .null := by
    intro b b' m hk hm
    refine null_unique ((hg _).2 (by omega)) (null_unique ((hg _).2 (by simp only; omega)) ?_)
    exact hm _ ((w.cons b).cons b') rfl
  cases c with
  | sir att nt nth =>
    cases hb
    exact key nt false nth _ h w h1 rfl
  | array att e nt nth =>
    cases hb
    exact two _ _ _ (by omega) fun h' w' e' => key nt false nth _ h' w' h1 (by omega)
  | annular att r e nt nth points =>
    cases hb
    exact two _ _ _ (by omega) fun h' w' e' => key nt false nth _ h' w' h1 (by omega)
  | das nth =>
    cases hb
    exact driver_null h1 granted h (by rw [← Bool.not_eq_true, hg]; omega) ((hg _).2 (by omega))
  | circ nth =>
    cases hb
    exact driver_null h1 granted h (by rw [← Bool.not_eq_true, hg]; omega) ((hg _).2 (by omega))
  | _ => cases hb

/-- Requests before the jobs are requested in fftconv_p, fftconv_ola and sum_fftconv, and before the first scratch vector. -/
def MemCall.jobsAt : MemCall → Option ℕ
  | .fftconv len _ _ _ => some (2 + (plans len).length)
  | .ola len _ _ _ => some (3 + (plans len).length)
  | .sum _ len _ _ _ _ => some (3 + (plans len).length)
  | _ => none

/-- Requests before the first scratch vector of the first worker. -/
def MemCall.scratchAt : MemCall → Option ℕ
  | .fftconv len nth _ _ => some (4 + (plans len).length + if 1 < nth then 1 else 0)
  | .ola len nth _ _ => some (4 + (plans len).length + if 1 < nth then 1 else 0)
  | .sum _ len nth _ _ _ => some (5 + (plans len).length + if 1 < nth then 1 else 0)
  | _ => none

/-- The length of the Fourier transforms, the number of workers, and the number of scratch vectors of each. -/
def MemCall.fft : MemCall → ℕ × ℕ × ℕ
  | .fftconv len nth _ _ => (len, nth, 6)
  | .ola len nth _ _ => (len, nth, 8)
  | .sum _ len nth _ _ _ => (len, nth, 6)
  | _ => (0, 0, 0)

theorem HM.bind_null {α β : Type} {m : HM α} {f : α → HM β} {o h} (hm : (m o h).1 = .null) : ((m.bind f) o h).1 = .null := by
  simp only [HM.bind]
  generalize m o h = r at hm
  obtain ⟨e, h1⟩ := r
  cases hm
  rfl

theorem local_null {α : Type} {p : Option ℕ} {m : HM α} {o h} (hm : (m o h).1 = .null) : ((local_ p m) o h).1 = .null := by
  simp only [local_]
  generalize m o h = r at hm
  obtain ⟨e, h1⟩ := r
  cases hm
  rfl

/-- If something used before is null. -/
theorem scratch_dead {o : ℕ → Bool} : ∀ (l : List Blk) (m : HM Unit) (h : Heap), (∀ h, (m o h).1 = .null) →
    ((scratch true l m) o h).1 = .null
  | [], m, h, hm => hm h
  | b :: l, m, h, hm => by
    have key : ∀ p h', ((scratch true l ((if true then use p else HM.pure ()).bind fun _ => m)) o h').1 = .null := by
      intro p h'
      refine scratch_dead l _ h' fun h'' => ?_
      cases p with
      | none => rfl
      | some p => exact hm h''
    show (((malloc b).bind fun p => local_ p _) o h).1 = _
    by_cases q : o h.next = true
    · simp only [HM.bind, malloc, if_pos q]; exact local_null (key _ _)
    · simp only [HM.bind, malloc, if_neg q]; exact local_null (key _ _)

theorem scratch_null {o : ℕ → Bool} : ∀ (l : List Blk) (m : HM Unit) (h : Heap) (j : ℕ), j < l.length →
    (∀ n, o n = true ↔ n ≠ h.next + j) → ((scratch true l m) o h).1 = .null
  | [], _, _, _, hj, _ => absurd hj (Nat.not_lt_zero _)
  | b :: l, m, h, 0, _, ho => by
    have e : ¬ o h.next = true := by rw [ho]; simp
    show (((malloc b).bind fun p => local_ p _) o h).1 = _
    simp only [HM.bind, malloc, if_neg e]
    exact local_null (scratch_dead l _ _ fun _ => rfl)
  | b :: l, m, h, j + 1, hj, ho => by
    have e : o h.next = true := by rw [ho]; omega
    show (((malloc b).bind fun p => local_ p _) o h).1 = _
    simp only [HM.bind, malloc, if_pos e]
    exact local_null (scratch_null l _ _ j (Nat.lt_of_succ_lt_succ hj) fun n => by rw [ho]; simp only; omega)

theorem start_null {o : ℕ → Bool} {t : Bool} {m : HM Unit} {h : Heap} (ht : t = true → o h.next = true)
    (hm : ∀ h' : Heap, h'.next = h.next + (if t then 1 else 0) → (m o h').1 = .null) : ((startWorker t m) o h).1 = .null := by
  cases t with
  | false => exact hm h rfl
  | true =>
    refine null_unique (ht rfl) ?_
    have := hm ⟨h.next + 1, (h.next, .state) :: h.live⟩ rfl
    show ((inThread m) o _).1 = _
    unfold inThread
    generalize m o _ = r at this
    obtain ⟨e, h1⟩ := r
    cases this
    rfl

theorem driver_scratch {first : Bool} {nth : ℕ} {w : HM Unit} (h1 : 1 ≤ nth) (o : ℕ → Bool) (h : Heap)
    (ho : ∀ n, n < h.next + 2 + (if 1 < nth then 1 else 0) → o n = true)
    (hm : ∀ h' : Heap, h'.next = h.next + 2 + (if 1 < nth then 1 else 0) → (w o h').1 = .null) :
    (driverMem .error first false nth w o h).1 = .null := by
  obtain ⟨k, rfl⟩ : ∃ k, nth = k + 1 := ⟨nth - 1, by omega⟩
  have o0 : o h.next = true := ho _ (by omega)
  have o1 : o (h.next + 1) = true := ho _ (by omega)
  have key : ∀ (p : ℕ) (h' : Heap), h'.next = h.next + 2 →
      ((HM.forN (fun _ => (use (some p)).bind fun _ => startWorker (false || decide (1 < k + 1)) w) (k + 1) 0) o h').1
        = .null := by
    intro p h' e
    refine HM.bind_null (m := (use (some p)).bind fun _ => startWorker (false || decide (1 < k + 1)) w) ?_
    show (startWorker (false || decide (1 < k + 1)) w o h').1 = _
    by_cases q : 1 < k + 1
    · simp only [if_pos q] at ho hm
      simp only [q, decide_true, Bool.false_or]
      exact start_null (fun _ => ho _ (by omega)) fun h'' e'' => hm _ (by simp only [if_true] at e''; omega)
    · simp only [if_neg q] at ho hm
      simp only [q, decide_false, Bool.false_or]
      exact start_null nofun fun h'' e'' => hm _ (by simp at e''; omega)
  cases first with
  | false =>
    have e := key h.next ⟨h.next + 2, (h.next + 1, .threads (k + 1)) :: (h.next, .jobs (k + 1)) :: h.live⟩ rfl
    simp only [driverMem, HM.bind, malloc, o0, o1, new, HM.pure, Bool.false_eq_true, if_false, if_true, reduceCtorEq,
      and_false]
    exact HM.bind_null (f := fun _ => free _) e
  | true =>
    have e := key (h.next + 1) ⟨h.next + 2, (h.next + 1, .jobs (k + 1)) :: (h.next, .threads (k + 1)) :: h.live⟩ rfl
    simp only [driverMem, HM.bind, malloc, o0, o1, new, HM.pure, if_true, reduceCtorEq, and_false, if_false]
    exact HM.bind_null (f := fun _ => free _) e

theorem driver_refused (first : Bool) (nth : ℕ) (w : HM Unit) (o : ℕ → Bool) (h : Heap)
    (ho : ∀ n, o n = true ↔ n ≠ h.next + if first then 1 else 0) :
    (driverMem .error first false nth w o h).1 = .thrown := by
  cases first with
  | false =>
    have o0 : ¬ o h.next = true := by rw [ho]; simp
    simp [driverMem, HM.bind, malloc, o0, HM.throw]
  | true =>
    have o0 : o h.next = true := by rw [ho]; simp
    have o1 : ¬ o (h.next + 1) = true := by rw [ho]; simp
    simp [driverMem, HM.bind, malloc, new, o0, o1, HM.throw, HM.pure]

theorem HM.bind_thrown {α β : Type} {m : HM α} {f : α → HM β} {o h} (hm : (m o h).1 = .thrown) :
    ((m.bind f) o h).1 = .thrown := by
  simp only [HM.bind]
  generalize m o h = r at hm
  obtain ⟨e, h1⟩ := r
  cases hm
  rfl

/-- The plans, then the driver. -/
theorem plans_then {len : ℕ} {f : Unit → HM Unit} {e : Ending Unit} (o : ℕ → Bool) (h : Heap)
    (ho : ∀ n, n < h.next + 2 + (plans len).length → o n = true)
    (hm : ∀ h' : Heap, h'.next = h.next + 2 + (plans len).length → (f () o h').1 = e) :
    (((fftPlans len).bind f) o h).1 = e := by
  obtain ⟨h', e', n⟩ := fftPlans_next len o h ho
  simp only [HM.bind, e']
  exact hm h' n

/-- The table of filters, then the rest. -/
theorem table_then {inputs : ℕ} {f : Option ℕ → HM Unit} {e : Ending Unit} (o : ℕ → Bool) (h : Heap)
    (ho : o h.next = true) (hm : ∀ p, ∀ h' : Heap, h'.next = h.next + 1 → (f (some p) o h').1 = e) :
    (((malloc (.filters inputs)).bind fun H => (HM.forN (fun _ => use H) inputs 0).bind fun _ => f H) o h).1 = e := by
  have k : ∀ (p c i : ℕ) (h : Heap), HM.forN (fun _ => use (some p)) c i o h = (.ok (), h) := by
    intro p c
    induction c with
    | zero => intro i h; rfl
    | succ c ih =>
      intro i h
      show ((use (some p)).bind fun _ => _) o h = _
      exact ih (i + 1) h
  simp only [HM.bind, malloc, if_pos ho, k]
  exact hm _ _ rfl

/-- C95: fftconv_p, fftconv_ola and sum_fftconv check the pointer to the jobs: if just this request is refused, the call
ends with an error. -/
theorem C95_jobs_checked (c : MemCall) (k : ℕ) (hb : c.jobsAt = some k) (h : Heap)
    (granted : ℕ → Bool) (hg : ∀ n, granted n = true ↔ n ≠ h.next + k) : (c.run granted h).1 = .thrown := by
  cases c with
  | fftconv len nth asked pressed =>
    cases hb
    refine plans_then granted h (fun n hn => (hg n).2 (by omega)) fun h' e => HM.bind_thrown ?_
    exact driver_refused false _ _ _ _ fun n => by rw [hg, e]; simp; omega
  | ola len nth asked pressed =>
    cases hb
    refine plans_then granted h (fun n hn => (hg n).2 (by omega)) fun h' e => HM.bind_thrown ?_
    exact driver_refused true _ _ _ _ fun n => by rw [hg, e]; simp; omega
  | sum inputs len nth asked pressed raises =>
    cases hb
    refine table_then granted h ((hg _).2 (by omega)) fun p h0 e0 => ?_
    refine plans_then granted h0 (fun n hn => (hg n).2 (by omega)) fun h' e => HM.bind_thrown ?_
    exact driver_refused false _ _ _ _ fun n => by rw [hg, e]; simp; omega
  | _ => cases hb

/-- C95, a violation: their scratch vectors are not checked: if just the request for one of those of the first worker is
refused, the call writes through a null pointer. -/
theorem C95_scratch_violated (c : MemCall) (k j : ℕ) (hb : c.scratchAt = some k) (h1 : 1 ≤ c.fft.1) (h2 : 1 ≤ c.fft.2.1)
    (hj : j < c.fft.2.2) (h : Heap)
    (granted : ℕ → Bool) (hg : ∀ n, granted n = true ↔ n ≠ h.next + k + j) : (c.run granted h).1 = .null := by
  cases c with
  | fftconv len nth asked pressed =>
    cases hb
    have hl : (decide (1 ≤ len)) = true := decide_eq_true h1
    refine plans_then granted h (fun n hn => (hg n).2 (by omega)) fun h' e => HM.bind_null ?_
    refine driver_scratch (nth := nth) h2 granted h' (fun n hn => (hg n).2 (by omega)) fun h'' e'' => ?_
    rw [hl]
    exact scratch_null _ _ _ j hj fun n => by rw [hg]; omega
  | ola len nth asked pressed =>
    cases hb
    have hl : (decide (1 ≤ len)) = true := decide_eq_true h1
    refine plans_then granted h (fun n hn => (hg n).2 (by omega)) fun h' e => HM.bind_null ?_
    refine driver_scratch (nth := nth) h2 granted h' (fun n hn => (hg n).2 (by omega)) fun h'' e'' => ?_
    rw [hl]
    exact scratch_null _ _ _ j hj fun n => by rw [hg]; omega
  | sum inputs len nth asked pressed raises =>
    cases hb
    have hl : (decide (1 ≤ len)) = true := decide_eq_true h1
    refine table_then granted h ((hg _).2 (by omega)) fun p h0 e0 => ?_
    refine plans_then granted h0 (fun n hn => (hg n).2 (by omega)) fun h' e => HM.bind_null ?_
    refine driver_scratch (nth := nth) h2 granted h' (fun n hn => (hg n).2 (by omega)) fun h'' e'' => ?_
    rw [hl]
    exact scratch_null _ _ _ j hj fun n => by rw [hg]; omega
  | _ => cases hb

/-- C95, a violation: nor is the table of filters of sum_fftconv. -/
theorem C95_table_violated (inputs len nth : ℕ) (asked pressed raises : Bool) (hi : 1 ≤ inputs) (h : Heap)
    (granted : ℕ → Bool) (hg : granted h.next = false) :
    (MemCall.run (.sum inputs len nth asked pressed raises) granted h).1 = .null := by
  obtain ⟨m, rfl⟩ : ∃ m, inputs = m + 1 := ⟨inputs - 1, by omega⟩
  have e : ¬ granted h.next = true := by rw [hg]; simp
  show (((malloc (.filters (m + 1))).bind fun H => (HM.forN (fun _ => use H) (m + 1) 0).bind _) granted h).1 = _
  simp only [HM.bind, malloc, if_neg e, HM.forN, use]

/-- No null pointer is used, and no exception leaves a thread. -/
def Calm {α : Type} (m : HM α) : Prop := ∀ o h, (m o h).1 ≠ .null ∧ (m o h).1 ≠ .killed

namespace Calm

theorem bind {α β : Type} {m : HM α} {f : α → HM β} (hm : Calm m) (hf : ∀ a, Calm (f a)) : Calm (m.bind f) := by
  intro o h
  have n := hm o h
  simp only [HM.bind]
  generalize m o h = r at n
  obtain ⟨e, h1⟩ := r
  cases e with
  | ok a => exact hf a o h1
  | thrown => exact ⟨by rintro ⟨⟩, by rintro ⟨⟩⟩
  | null => exact absurd rfl n.1
  | badFree => exact ⟨by rintro ⟨⟩, by rintro ⟨⟩⟩
  | killed => exact absurd rfl n.2

theorem malloc (b : Blk) : Calm (HM.malloc b) := by
  intro o h
  unfold HM.malloc
  split <;> exact ⟨by rintro ⟨⟩, by rintro ⟨⟩⟩

theorem free (p : Option ℕ) : Calm (HM.free p) := by
  intro o h
  unfold HM.free
  cases p with
  | none => exact ⟨by rintro ⟨⟩, by rintro ⟨⟩⟩
  | some p => dsimp only; split <;> exact ⟨by rintro ⟨⟩, by rintro ⟨⟩⟩

theorem pure {α : Type} (a : α) : Calm (HM.pure a) := fun _ _ => ⟨by rintro ⟨⟩, by rintro ⟨⟩⟩
theorem throw {α : Type} : Calm (HM.throw : HM α) := fun _ _ => ⟨by rintro ⟨⟩, by rintro ⟨⟩⟩
theorem use (p : ℕ) : Calm (HM.use (some p)) := fun _ _ => ⟨by rintro ⟨⟩, by rintro ⟨⟩⟩

theorem new (b : Blk) : Calm (HM.new b) := bind (malloc b) fun p => by
  cases p with
  | none => exact throw
  | some p => exact pure p

theorem forN {f : ℕ → HM Unit} (hf : ∀ i, Calm (f i)) : ∀ c i, Calm (HM.forN f c i)
  | 0, _ => pure ()
  | c + 1, i => bind (hf i) fun _ => forN hf c (i + 1)

theorem start (t : Bool) : Calm (startWorker t (HM.pure ())) := by
  cases t
  · exact pure ()
  · refine bind (new _) fun p => ?_
    have e : local_ (some p) (HM.uniques [] (inThread (HM.pure ()))) = (HM.free (some p)).bind fun _ => HM.pure () := rfl
    rw [e]
    exact bind (free _) fun _ => pure ()

end Calm

/-- C95: conv_p, copy_p and add_p check the pointer: whatever requests are refused, a call ends normally or with
an error. -/
theorem C95_checked (c : MemCall) (nth : ℕ) (hc : c = .conv nth ∨ c = .copy nth) (granted : ℕ → Bool) (h : Heap)
    (w : h.Wf) : (c.run granted h).1 = .ok () ∨ (c.run granted h).1 = .thrown := by
  have hk : ∀ al : Bool, Calm (checkedMem al nth) := by
    intro al
    unfold checkedMem
    rw [driverMem_eq]
    refine .bind (.malloc _) fun D => .bind ?_ fun _ => .bind (.free _) fun _ => .pure ()
    cases D with
    | none => exact .throw
    | some p =>
      exact .bind (.pure ()) fun _ => .bind (.new _) fun _ => .forN (fun _ => .bind (.use p) fun _ => .start _) _ _
  have hr : Calm c.run := by
    rcases hc with rfl | rfl
    · exact hk false
    · exact hk true
  have h1 := hr granted h
  have h2 := (c.tame granted h w).1
  generalize (c.run granted h).1 = e at h1 h2
  cases e with
  | ok a => exact .inl rfl
  | thrown => exact .inr rfl
  | null => exact absurd rfl h1.1
  | badFree => exact absurd rfl h2
  | killed => exact absurd rfl h1.2

/-! ### Concrete cases -/

/-- The empty heap. -/
def emptyHeap : Heap := ⟨0, []⟩

theorem emptyHeap_wf : emptyHeap.Wf := nofun

-- dreamrect with attenuation, 1000 samples and two workers keeps the thread objects and two plans
example : ∃ h' A, MemCall.run (.sir true 1000 2) (fun _ => true) emptyHeap = (.ok (), h') ∧ h'.live = A ++ [] ∧
    A.map Prod.snd = [.threads 2, .plan 1000, .plan 1000] :=
  C95_call_keeps_violated (.sir true 1000 2) emptyHeap emptyHeap_wf

-- fftconv_p with length 8 and two workers: without the fourth scratch vector (request 10 after the start) it writes through null
example : (MemCall.run (.fftconv 8 2 false false) (fun n => decide (n ≠ 10)) emptyHeap).1 = .null :=
  C95_scratch_violated (.fftconv 8 2 false false) 7 3 rfl (by decide) (by decide) (by decide) emptyHeap _
    (fun n => by simp [emptyHeap])

-- without the jobs (request 4) it ends with an error
example : (MemCall.run (.fftconv 8 2 false false) (fun n => decide (n ≠ 4)) emptyHeap).1 = .thrown :=
  C95_jobs_checked (.fftconv 8 2 false false) 4 rfl emptyHeap _ (fun n => by simp [emptyHeap])

-- sum_fftconv without its table
example : (MemCall.run (.sum 3 8 1 false false true) (fun _ => false) emptyHeap).1 = .null :=
  C95_table_violated 3 8 1 false false true (by decide) emptyHeap _ rfl

-- sum_fftconv with three filters ended by CTRL-C keeps their table
example : ∃ h' A, MemCall.run (.sum 3 99 1 false true true) (fun _ => true) emptyHeap = (.thrown, h') ∧ h'.live = A ++ [] ∧
    A.map Prod.snd = [.threads 1, .plan 99, .plan 99, .filters 3] :=
  C95_call_keeps_violated (.sum 3 99 1 false true true) emptyHeap emptyHeap_wf

-- a hundred calls of conv_p with four workers: at least a hundred blocks
example : ∃ h', sessionMem (List.replicate 100 (.conv 4)) (fun _ => true) emptyHeap = (.ok (), h') ∧ 100 ≤ h'.live.length := by
  obtain ⟨h', e, l⟩ := C95_session_grows_violated (List.replicate 100 (.conv 4))
    (fun c hc => by rw [List.eq_of_mem_replicate hc]; exact ⟨4, by simp [MemCall.lost]⟩) emptyHeap emptyHeap_wf
  exact ⟨h', e, by simpa [emptyHeap] using l⟩

-- das: the first request is refused
example : (MemCall.run (.das 3) (fun n => n ≠ 0) emptyHeap).1 = .null :=
  C95_out_of_memory_violated (.das 3) 0 rfl (by decide) emptyHeap emptyHeap_wf _ (by simp [emptyHeap])

end Dream
