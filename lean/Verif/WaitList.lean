/-!
# The intrusive doubly linked list of waiting senders

Pointer-level model of `List`, `Waiter` and `Node` in `src/wait/queue.rs`. Addresses of
nodes are natural numbers; `WList.node` is the memory holding the nodes.
-/

namespace Thingbuf.Queue

variable {W : Type}

/-- The values of the queue's and of a node's state word.
`src/wait/queue.rs:156-159` (`EMPTY`, `WAITING`, `WAKING`, `CLOSED`). -/
inductive QSt where
  | empty | waiting | waking | closed
  deriving DecidableEq, Repr

/-- A waiter node. `src/wait/queue.rs:103-147` (`Waiter` with its `state` and its `Node`:
`next`, `prev`, `waiter`). -/
structure Node (W : Type) where
  next : Option Nat
  prev : Option Nat
  waiter : Option W
  state : QSt

/-- `Waiter::new`, `src/wait/queue.rs:459-469`. -/
def Node.new : Node W := ⟨none, none, none, .empty⟩

/-- The list head (`src/wait/queue.rs:151-154`) together with the memory of all nodes. -/
structure WList (W : Type) where
  head : Option Nat
  tail : Option Nat
  node : Nat → Node W

/-- `List::new`, `src/wait/queue.rs:541-546`; every node in memory as `Waiter::new` leaves
it. -/
def WList.new : WList W := ⟨none, none, fun _ => Node.new⟩

/-- Write to one node. Scaffolding of the model, no counterpart in the source: an assignment through a node pointer
(/repo/src/wait/queue.rs lines 548-626). -/
def WList.set (l : WList W) (n : Nat) (f : Node W → Node W) : WList W :=
  { l with node := fun m => if m = n then f (l.node m) else l.node m }

/-- What a list operation yields: the new list, a result, whether every debug assertion on
the way held, and which nodes were dereferenced. Simplification: when an assertion fails
the memory is left as if the operation had run to its end. For /repo/src/wait/queue.rs lines 548-626. -/
structure Res (W α : Type) where
  list : WList W
  val : α
  ok : Bool
  touched : List Nat

/-- `List::enqueue`, `src/wait/queue.rs:548-574`. The assertion
`debug_assert_ne!(self.head, Some(ptr))` compares with a head that has just been taken, so
it compares `None`. -/
def WList.enqueue (l : WList W) (n : Nat) : Res W Unit :=
  let h := l.head
  let l1 := l.set n fun nd => { nd with next := h, prev := none }
  let l2 := match h with
    | some h => l1.set h fun nd => { nd with prev := some n }
    | none => l1
  { list := { head := some n
              tail := match l.tail with | none => some n | some t => some t
              node := l2.node }
    val := ()
    ok := (none : Option Nat) != some n
    touched := n :: h.toList }

/-- `List::dequeue`, `src/wait/queue.rs:576-599`. The result also names the node, for the
trace. -/
def WList.dequeue (l : WList W) (newState : QSt) : Res W (Option (Nat × Option W)) :=
  match l.tail with
  | none => ⟨l, none, true, []⟩
  | some t =>
    let nd := l.node t
    let l1 := l.set t fun nd =>
      { nd with state := newState, next := none, prev := none, waiter := none }
    match nd.prev with
    | some p =>
      { list := { (l1.set p fun nd => { nd with next := none }) with tail := some p }
        val := some (t, nd.waiter)
        ok := nd.state == .waiting
        touched := [t, p] }
    | none =>
      { list := { l1 with head := none, tail := none }
        val := some (t, nd.waiter)
        ok := nd.state == .waiting
        touched := [t] }

/-- First half of `List::remove`, `src/wait/queue.rs:605-616`: unhook from the left. -/
def WList.unhookPrev (l : WList W) (n : Nat) (prev next : Option Nat) : WList W :=
  match prev with
  | some p => l.set p fun nd => { nd with next := next }
  | none => if l.head = some n then { l with head := next } else l

/-- Second half of `List::remove`, `src/wait/queue.rs:618-625`: unhook from the right. -/
def WList.unhookNext (l : WList W) (n : Nat) (prev next : Option Nat) : WList W :=
  match next with
  | some x => l.set x fun nd => { nd with prev := prev }
  | none => if l.tail = some n then { l with tail := prev } else l

/-- `List::remove`, `src/wait/queue.rs:601-626`. -/
def WList.remove (l : WList W) (n : Nat) : Res W Unit :=
  let prev := (l.node n).prev
  let next := (l.node n).next
  let l1 := l.set n fun nd => { nd with prev := none, next := none }
  let ok1 := match prev with | some p => (l1.node p).next == some n | none => true
  let l2 := l1.unhookPrev n prev next
  let ok2 := match next with | some x => (l2.node x).prev == some n | none => true
  let l3 := l2.unhookNext n prev next
  { list := l3
    val := ()
    ok := ok1 && ok2
    touched := n :: (prev.toList ++ next.toList) }

/-- `List::is_empty`, `src/wait/queue.rs:628-630`. -/
def WList.isEmpty (l : WList W) : Bool := l.head.isNone && l.tail.isNone

/-! ## What the pointers represent -/

/-- The pointers represent the sequence `xs`, most recently enqueued first: the head is its
first element, the tail its last, no node occurs twice, every node in it points to its
neighbours, and every other node points nowhere. The meaning of the pointers of /repo/src/wait/queue.rs lines
103-154. Scaffolding of the model, no counterpart in the source. -/
structure Rep (l : WList W) (xs : List Nat) : Prop where
  head : l.head = xs.head?
  tail : l.tail = xs.getLast?
  nodup : xs.Nodup
  links : ∀ l1 a l2, xs = l1 ++ a :: l2 →
    (l.node a).prev = l1.getLast? ∧ (l.node a).next = l2.head?
  off : ∀ n, n ∉ xs → (l.node n).prev = none ∧ (l.node n).next = none

theorem Rep.init : Rep (WList.new : WList W) [] := by
  constructor <;> simp [WList.new, Node.new]

theorem Rep.isEmpty {l : WList W} {xs : List Nat} (h : Rep l xs) :
    l.isEmpty = xs.isEmpty := by
  unfold WList.isEmpty
  rw [h.head, h.tail]
  cases xs <;> simp

@[simp] theorem WList.set_head (l : WList W) (n f) : (l.set n f).head = l.head := rfl
@[simp] theorem WList.set_tail (l : WList W) (n f) : (l.set n f).tail = l.tail := rfl
theorem WList.set_node (l : WList W) (n f m) :
    (l.set n f).node m = if m = n then f (l.node m) else l.node m := rfl
@[simp] theorem WList.set_node_same (l : WList W) (n f) :
    (l.set n f).node n = f (l.node n) := by simp [WList.set_node]
theorem WList.set_node_ne (l : WList W) {n m} (f) (h : m ≠ n) :
    (l.set n f).node m = l.node m := by simp [WList.set_node, h]

/-- Changing the state or the waiter of a node does not change what the pointers represent. -/
theorem Rep.set {l : WList W} {xs : List Nat} (h : Rep l xs) (n : Nat) (f : Node W → Node W)
    (hp : ∀ nd, (f nd).prev = nd.prev) (hn : ∀ nd, (f nd).next = nd.next) :
    Rep (l.set n f) xs := by
  have key : ∀ m, ((l.set n f).node m).prev = (l.node m).prev ∧
      ((l.set n f).node m).next = (l.node m).next := by
    intro m
    simp only [WList.set_node]
    split <;> simp [hp, hn]
  constructor
  · exact h.head
  · exact h.tail
  · exact h.nodup
  · intro l1 a l2 he
    rw [(key a).1, (key a).2]; exact h.links l1 a l2 he
  · intro m hm
    rw [(key m).1, (key m).2]; exact h.off m hm

theorem Rep.enqueue {l : WList W} {xs : List Nat} (h : Rep l xs) {n : Nat} (hn : n ∉ xs) :
    Rep (l.enqueue n).list (n :: xs) := by
  have hnode : ∀ m, (l.enqueue n).list.node m =
      if xs.head? = some m then { (l.node m) with prev := some n }
      else if m = n then { (l.node m) with next := xs.head?, prev := none } else l.node m := by
    intro m
    simp only [WList.enqueue, h.head]
    cases xs with
    | nil => simp [WList.set_node]
    | cons x xs =>
      have : n ≠ x := by simp at hn; exact hn.1
      simp only [List.head?_cons, WList.set_node, Option.some.injEq]
      by_cases hm : m = x
      · subst hm; simp [Ne.symm this]
      · simp [hm, Ne.symm hm, fun h : x = m => hm h.symm]
  constructor
  · simp [WList.enqueue]
  · simp only [WList.enqueue, h.tail]
    cases xs with
    | nil => simp
    | cons x xs => simp only [List.getLast?_cons_cons]; simp [List.getLast?_cons]
  · exact List.nodup_cons.mpr ⟨hn, h.nodup⟩
  · intro l1 a l2 he
    rw [hnode]
    cases l1 with
    | nil =>
      simp only [List.nil_append, List.cons.injEq] at he
      obtain ⟨rfl, rfl⟩ := he
      have : ¬ xs.head? = some n := by
        intro hc; exact hn (List.mem_of_mem_head? hc)
      simp [this]
    | cons b l1 =>
      simp only [List.cons_append, List.cons.injEq] at he
      obtain ⟨rfl, rfl⟩ := he
      have han : a ≠ n := by rintro rfl; simp at hn
      have hl := h.links l1 a l2 rfl
      cases l1 with
      | nil => simp [hl.2]
      | cons c l1 =>
        have hca : c ≠ a := by
          rintro rfl
          have := h.nodup
          simp at this
        simp only [List.cons_append, List.head?_cons, Option.some.injEq, hca, if_false, han]
        rw [hl.1, hl.2, List.getLast?_cons_cons]
        exact ⟨rfl, rfl⟩
  · intro m hm
    rw [hnode]
    simp only [List.mem_cons, not_or] at hm
    have : ¬ xs.head? = some m := by
      intro hc; exact hm.2 (List.mem_of_mem_head? hc)
    simp only [this, if_false, hm.1]
    exact h.off m hm.2

theorem Rep.dequeue_nil {l : WList W} (h : Rep l []) (q : QSt) :
    l.dequeue q = ⟨l, none, true, []⟩ := by
  unfold WList.dequeue; rw [h.tail]; rfl

theorem Rep.dequeue_node {l : WList W} {xs : List Nat} {x : Nat} (h : Rep l (xs ++ [x]))
    (q : QSt) (m : Nat) :
    (l.dequeue q).list.node m =
      if m = x then { (l.node m) with state := q, next := none, prev := none, waiter := none }
      else if xs.getLast? = some m then { (l.node m) with next := none } else l.node m := by
  have hx := (h.links xs x [] rfl).1
  unfold WList.dequeue
  rw [h.tail]
  simp only [List.getLast?_append, List.getLast?_singleton, Option.some_or]
  rw [hx]
  cases hp : xs.getLast? with
  | none => simp [WList.set_node]
  | some p =>
    have hpx : p ≠ x := by
      rintro rfl
      have := h.nodup
      rw [List.nodup_append] at this
      exact this.2.2 p (List.mem_of_getLast? hp) p (by simp) rfl
    simp only [WList.set_node, Option.some.injEq]
    by_cases h1 : m = x
    · subst h1; simp [Ne.symm hpx]
    · by_cases h2 : m = p
      · subst h2; simp [h1]
      · simp only [h1, h2, if_false]
        rw [if_neg fun h => h2 h.symm]

theorem Rep.dequeue_val {l : WList W} {xs : List Nat} {x : Nat} (h : Rep l (xs ++ [x]))
    (q : QSt) : (l.dequeue q).val = some (x, (l.node x).waiter) ∧
      (l.dequeue q).ok = ((l.node x).state == .waiting) ∧
      (l.dequeue q).touched = x :: xs.getLast?.toList := by
  have hx := (h.links xs x [] rfl).1
  unfold WList.dequeue
  rw [h.tail]
  simp only [List.getLast?_append, List.getLast?_singleton, Option.some_or]
  rw [hx]
  cases hp : xs.getLast? <;> simp

theorem Rep.dequeue {l : WList W} {xs : List Nat} {x : Nat} (h : Rep l (xs ++ [x]))
    (q : QSt) : Rep (l.dequeue q).list xs := by
  have hnode := h.dequeue_node q
  have hx := (h.links xs x [] rfl).1
  have hnd := h.nodup
  rw [List.nodup_append] at hnd
  have hxx : ∀ a ∈ xs, a ≠ x := fun a ha => hnd.2.2 a ha x (by simp)
  constructor
  · unfold WList.dequeue
    rw [h.tail]
    simp only [List.getLast?_append, List.getLast?_singleton, Option.some_or]
    rw [hx]
    cases hp : xs.getLast? with
    | none => simp only [List.getLast?_eq_none_iff] at hp; subst hp; rfl
    | some p =>
      simp only [WList.set_head]
      rw [h.head]
      cases xs <;> simp at hp ⊢
  · unfold WList.dequeue
    rw [h.tail]
    simp only [List.getLast?_append, List.getLast?_singleton, Option.some_or]
    rw [hx]
    cases hp : xs.getLast? <;> simp
  · exact hnd.1
  · intro l1 a l2 he
    have hl := h.links l1 a (l2 ++ [x]) (by rw [he]; simp)
    have ha : a ≠ x := hxx a (by rw [he]; simp)
    rw [hnode]
    simp only [ha, if_false]
    by_cases h2 : l2 = []
    · subst h2
      have : xs.getLast? = some a := by rw [he]; simp
      simp [this, hl.1]
    · have : ¬ xs.getLast? = some a := by
        intro hc
        rw [he, List.getLast?_append] at hc
        obtain ⟨b, l3, rfl⟩ := List.exists_cons_of_ne_nil h2
        rw [List.getLast?_cons_cons] at hc
        have hm : a ∈ b :: l3 := by
          have : (b :: l3).getLast? = some a := by
            cases hh : (b :: l3).getLast? with
            | none => simp at hh
            | some z => rw [hh] at hc; simpa using hc
          exact List.mem_of_getLast? this
        have hnn := hnd.1
        rw [he, List.nodup_append] at hnn
        exact (List.nodup_cons.mp hnn.2.1).1 hm
      simp only [this, if_false]
      refine ⟨hl.1, ?_⟩
      rw [hl.2]
      obtain ⟨b, l3, rfl⟩ := List.exists_cons_of_ne_nil h2
      simp
  · intro m hm
    rw [hnode]
    by_cases h1 : m = x
    · simp [h1]
    · have : ¬ xs.getLast? = some m := fun hc => hm (List.mem_of_getLast? hc)
      simp only [h1, this, if_false]
      exact h.off m (by simp [hm, h1])

theorem WList.unhookPrev_node (l : WList W) (n : Nat) (prev next : Option Nat) (m : Nat) :
    (l.unhookPrev n prev next).node m =
      if prev = some m then { (l.node m) with next := next } else l.node m := by
  unfold WList.unhookPrev
  cases prev with
  | none => simp only [reduceCtorEq, if_false]; split <;> rfl
  | some p => simp [WList.set_node, eq_comm]

theorem WList.unhookNext_node (l : WList W) (n : Nat) (prev next : Option Nat) (m : Nat) :
    (l.unhookNext n prev next).node m =
      if next = some m then { (l.node m) with prev := prev } else l.node m := by
  unfold WList.unhookNext
  cases next with
  | none => simp only [reduceCtorEq, if_false]; split <;> rfl
  | some p => simp [WList.set_node, eq_comm]

/-- Removing a node that is not in the list does nothing. -/
theorem Rep.remove_off {l : WList W} {xs : List Nat} (h : Rep l xs) {n : Nat} (hn : n ∉ xs) :
    (l.remove n).list.head = l.head ∧ (l.remove n).list.tail = l.tail ∧
      (∀ m, (l.remove n).list.node m = l.node m) ∧ (l.remove n).ok = true ∧
      (l.remove n).touched = [n] := by
  obtain ⟨hp, hx⟩ := h.off n hn
  have hh : l.head ≠ some n := by
    rw [h.head]; intro hc; exact hn (List.mem_of_mem_head? hc)
  have ht : l.tail ≠ some n := by
    rw [h.tail]; intro hc; exact hn (List.mem_of_getLast? hc)
  unfold WList.remove
  simp only [hp, hx, WList.unhookPrev, WList.unhookNext, WList.set_head, hh, if_false,
    WList.set_tail, ht]
  refine ⟨trivial, trivial, ?_, by simp, by simp⟩
  intro m
  by_cases hm : m = n
  · subst hm
    simp only [WList.set_node_same]
    generalize hq : l.node m = nd at hp hx
    cases nd
    simp_all
  · exact WList.set_node_ne _ _ hm

theorem Rep.of_same {l l' : WList W} {xs : List Nat} (h : Rep l xs) (h1 : l'.head = l.head)
    (h2 : l'.tail = l.tail) (h3 : ∀ m, (l'.node m).prev = (l.node m).prev ∧
      (l'.node m).next = (l.node m).next) : Rep l' xs := by
  constructor
  · rw [h1, h.head]
  · rw [h2, h.tail]
  · exact h.nodup
  · intro l1 a l2 he; rw [(h3 a).1, (h3 a).2]; exact h.links l1 a l2 he
  · intro m hm; rw [(h3 m).1, (h3 m).2]; exact h.off m hm

theorem Rep.remove_node {l : WList W} {p q : List Nat} {n : Nat} (h : Rep l (p ++ n :: q))
    (m : Nat) : (l.remove n).list.node m =
      if m = n then { (l.node m) with prev := none, next := none }
      else if p.getLast? = some m then { (l.node m) with next := q.head? }
      else if q.head? = some m then { (l.node m) with prev := p.getLast? }
      else l.node m := by
  obtain ⟨hp, hx⟩ := h.links p n q rfl
  have hnd := h.nodup
  rw [List.nodup_append, List.nodup_cons] at hnd
  have hpn : p.getLast? ≠ some n := fun hc =>
    hnd.2.2 n (List.mem_of_getLast? hc) n (by simp) rfl
  have hqn : q.head? ≠ some n := fun hc => hnd.2.1.1 (List.mem_of_mem_head? hc)
  simp only [WList.remove, hp, hx]
  rw [WList.unhookNext_node, WList.unhookPrev_node]
  by_cases h1 : m = n
  · subst h1; simp [hpn, hqn]
  · rw [WList.set_node_ne _ _ h1]
    simp only [h1, if_false]
    by_cases h2 : p.getLast? = some m
    · have : q.head? ≠ some m := fun hc =>
        hnd.2.2 m (List.mem_of_getLast? h2) m (by simp [List.mem_of_mem_head? hc]) rfl
      simp [h2, this]
    · simp [h2]

theorem Rep.remove_ok {l : WList W} {p q : List Nat} {n : Nat} (h : Rep l (p ++ n :: q)) :
    (l.remove n).ok = true ∧
      (l.remove n).touched = n :: (p.getLast?.toList ++ q.head?.toList) := by
  obtain ⟨hp, hx⟩ := h.links p n q rfl
  have hnd := h.nodup
  rw [List.nodup_append, List.nodup_cons] at hnd
  refine ⟨?_, by simp [WList.remove, hp, hx]⟩
  simp only [WList.remove, hp, hx, Bool.and_eq_true]
  constructor
  · cases hh : p.getLast? with
    | none => rfl
    | some a =>
      have han : a ≠ n := by
        rintro rfl; exact hnd.2.2 a (List.mem_of_getLast? hh) a (by simp) rfl
      simp only [beq_iff_eq]
      rw [WList.set_node_ne _ _ han]
      obtain ⟨p', rfl⟩ : ∃ p', p = p' ++ [a] := by
        rw [List.getLast?_eq_some_iff] at hh; exact hh
      have := (h.links p' a (n :: q) (by simp)).2
      rw [this]; rfl
  · cases hh : q.head? with
    | none => rfl
    | some a =>
      obtain ⟨q', rfl⟩ : ∃ q', q = a :: q' := by
        cases q with
        | nil => simp at hh
        | cons b q' => simp at hh; subst hh; exact ⟨q', rfl⟩
      have han : a ≠ n := by rintro rfl; simp at hnd
      have hpa : p.getLast? ≠ some a := fun hc =>
        hnd.2.2 a (List.mem_of_getLast? hc) a (by simp) rfl
      simp only [beq_iff_eq]
      rw [WList.unhookPrev_node]
      simp only [hpa, if_false]
      rw [WList.set_node_ne _ _ han]
      have := (h.links (p ++ [n]) a q' (by simp)).1
      rw [this]; simp

theorem Rep.remove {l : WList W} {p q : List Nat} {n : Nat} (h : Rep l (p ++ n :: q)) :
    Rep (l.remove n).list (p ++ q) := by
  have hnode := h.remove_node
  obtain ⟨hp, hx⟩ := h.links p n q rfl
  have hnd := h.nodup
  have hnd2 := h.nodup
  rw [List.nodup_append, List.nodup_cons] at hnd2
  have hnpq : n ∉ p ++ q := by
    simp only [List.mem_append, not_or]
    exact ⟨fun hc => hnd2.2.2 n hc n (by simp) rfl, hnd2.2.1.1⟩
  have hndpq : (p ++ q).Nodup := by
    rw [List.nodup_append]
    exact ⟨hnd2.1, hnd2.2.1.2, fun a ha b hb => hnd2.2.2 a ha b (by simp [hb])⟩
  have hhead : l.head = (p ++ n :: q).head? := h.head
  have htail : l.tail = (p ++ n :: q).getLast? := h.tail
  constructor
  · simp only [WList.remove, hp, hx]
    have e1 : ∀ (k : WList W), (k.unhookNext n p.getLast? q.head?).head = k.head := by
      intro k; unfold WList.unhookNext; split
      · rfl
      · split <;> rfl
    rw [e1]
    unfold WList.unhookPrev
    cases hh : p.getLast? with
    | none =>
      simp only [List.getLast?_eq_none_iff] at hh; subst hh
      simp only [List.nil_append, List.head?_cons] at hhead
      simp [hhead]
    | some a =>
      simp only [WList.set_head, hhead]
      cases p with
      | nil => simp at hh
      | cons b p => simp
  · simp only [WList.remove, hp, hx]
    have e1 : ∀ (k : WList W), (k.unhookPrev n p.getLast? q.head?).tail = k.tail := by
      intro k; unfold WList.unhookPrev; split
      · rfl
      · split <;> rfl
    unfold WList.unhookNext
    cases hh : q.head? with
    | none =>
      simp only [List.head?_eq_none_iff] at hh; subst hh
      simp only [List.head?_nil] at e1
      simp only [e1, WList.set_tail, htail]
      simp
    | some a =>
      simp only [WList.set_tail]
      rw [hh] at e1
      rw [e1]
      simp only [WList.set_tail, htail]
      cases q with
      | nil => simp at hh
      | cons b q => simp [List.getLast?_append, List.getLast?_cons]
  · exact hndpq
  · intro l1 a l2 he
    have han : a ≠ n := by rintro rfl; exact hnpq (by rw [he]; simp)
    have hndE := hndpq
    rw [hnode]
    simp only [han, if_false]
    rw [List.append_eq_append_iff] at he
    rcases he with ⟨r, rfl, hq⟩ | ⟨r, hp', hr⟩
    · -- `a` lies in `q`
      have hl := h.links (p ++ n :: r) a l2 (by rw [hq]; simp)
      have hap : p.getLast? ≠ some a := fun hc =>
        hnd2.2.2 a (List.mem_of_getLast? hc) a (by rw [hq]; simp) rfl
      simp only [hap, if_false]
      by_cases hr : r = []
      · subst hr
        simp only [List.nil_append] at hq
        subst hq
        simp [hl.2]
      · obtain ⟨b, r', rfl⟩ := List.exists_cons_of_ne_nil hr
        have hqa : q.head? ≠ some a := by
          rw [hq]
          simp only [List.cons_append, List.head?_cons, ne_eq, Option.some.injEq]
          rintro rfl
          have := hnd2.2.1.2
          rw [hq] at this
          simp at this
        simp only [hqa, if_false]
        refine ⟨?_, hl.2⟩
        rw [hl.1]
        simp [List.getLast?_append, List.getLast?_cons]
    · cases r with
      | nil =>
        simp only [List.append_nil, List.nil_append] at hp' hr
        subst hp'
        have hl := h.links (p ++ [n]) a l2 (by rw [← hr]; simp)
        have hap : p.getLast? ≠ some a := fun hc =>
          hnd2.2.2 a (List.mem_of_getLast? hc) a (by rw [← hr]; simp) rfl
        simp only [hap, if_false]
        rw [← hr]
        simp [hl.2]
      | cons c r =>
        simp only [List.cons_append, List.cons.injEq] at hr
        obtain ⟨rfl, rfl⟩ := hr
        have hl := h.links l1 a (r ++ n :: q) (by rw [hp']; simp)
        have hqa : q.head? ≠ some a := fun hc =>
          hnd2.2.2 a (by rw [hp']; simp) a (by simp [List.mem_of_mem_head? hc]) rfl
        by_cases hr0 : r = []
        · subst hr0
          have : p.getLast? = some a := by rw [hp']; simp
          simp [this, hl.1]
        · have hpa : p.getLast? ≠ some a := by
            intro hc
            obtain ⟨b, r', rfl⟩ := List.exists_cons_of_ne_nil hr0
            have hm : a ∈ b :: r' := by
              apply List.mem_of_getLast?
              rw [hp', List.getLast?_append, List.getLast?_cons_cons] at hc
              cases hh : (b :: r').getLast? with
              | none => simp at hh
              | some z => rw [hh] at hc; simpa using hc
            have := hnd2.1
            rw [hp', List.nodup_append, List.nodup_cons] at this
            exact this.2.1.1 hm
          simp only [hpa, hqa, if_false]
          refine ⟨hl.1, ?_⟩
          rw [hl.2]
          obtain ⟨b, r', rfl⟩ := List.exists_cons_of_ne_nil hr0
          simp
  · intro m hm
    rw [hnode]
    by_cases h1 : m = n
    · simp [h1]
    · simp only [List.mem_append, not_or] at hm
      have h2 : p.getLast? ≠ some m := fun hc => hm.1 (List.mem_of_getLast? hc)
      have h3 : q.head? ≠ some m := fun hc => hm.2 (List.mem_of_mem_head? hc)
      simp only [h1, h2, h3, if_false]
      exact h.off m (by simp [hm, h1])

/-- The sequence represented is unique. -/
theorem Rep.unique {l : WList W} {xs ys : List Nat} (h : Rep l xs) (h' : Rep l ys) :
    xs = ys := by
  have key : ∀ (t u c : List Nat), xs = c ++ t → ys = c ++ u → t = u := by
    intro t
    induction t with
    | nil =>
      intro u c hx hy
      cases u with
      | nil => rfl
      | cons b u =>
        rcases List.eq_nil_or_concat c with rfl | ⟨c', d, rfl⟩
        · have h1 := h.head; have h2 := h'.head
          rw [hx] at h1; rw [hy] at h2; rw [h1] at h2; simp at h2
        · have h1 := (h.links c' d [] (by rw [hx]; simp)).2
          have h2 := (h'.links c' d (b :: u) (by rw [hy]; simp)).2
          rw [h1] at h2; simp at h2
    | cons a t ih =>
      intro u c hx hy
      have hab : u.head? = some a := by
        rcases List.eq_nil_or_concat c with rfl | ⟨c', d, rfl⟩
        · have h1 := h.head; have h2 := h'.head
          rw [hx] at h1; rw [hy] at h2; rw [h1] at h2; simpa using h2.symm
        · have h1 := (h.links c' d (a :: t) (by rw [hx]; simp)).2
          have h2 := (h'.links c' d u (by rw [hy]; simp)).2
          rw [h1] at h2; simpa using h2.symm
      cases u with
      | nil => simp at hab
      | cons b u =>
        simp only [List.head?_cons, Option.some.injEq] at hab
        subst hab
        congr 1
        exact ih u (c ++ [b]) (by rw [hx]; simp) (by rw [hy]; simp)
  simpa using key xs ys [] rfl rfl

end Thingbuf.Queue
