import Verif.WaitList

/-!
# C25: the intrusive wait list is a sequence

The specification is an ordinary list of node names, oldest waiter last. Any sequence of
`enqueue`, `dequeue` and `remove` calls on the pointers is matched by the same sequence on
the specification.
-/

namespace Thingbuf.Queue

variable {W : Type}

/-- A call on the list. -/
inductive LOp where
  | enq (n : Nat) | deq | rem (n : Nat)
  deriving DecidableEq

/-- The specification: a list of nodes, newest first. Enqueueing a node that is already in
the list is not allowed (`none`). A dequeue returns the oldest node. -/
def specOp (xs : List Nat) : LOp → Option (List Nat × Option Nat)
  | .enq n => if n ∈ xs then none else some (n :: xs, none)
  | .deq => some (xs.dropLast, xs.getLast?)
  | .rem n => some (xs.erase n, none)

/-- The same call on the pointers. -/
def ptrOp (l : WList W) : LOp → Res W (Option Nat)
  | .enq n => let r := l.enqueue n; ⟨r.list, none, r.ok, r.touched⟩
  | .deq => let r := l.dequeue .waking; ⟨r.list, r.val.map (·.1), r.ok, r.touched⟩
  | .rem n => let r := l.remove n; ⟨r.list, none, r.ok, r.touched⟩

/-- Run a sequence of calls on the specification; the nodes returned by dequeues. -/
def specRun (xs : List Nat) : List LOp → Option (List Nat × List (Option Nat))
  | [] => some (xs, [])
  | o :: os => do
    let (ys, r) ← specOp xs o
    let (zs, rs) ← specRun ys os
    pure (zs, r :: rs)

/-- Run a sequence of calls on the pointers. -/
def ptrRun (l : WList W) : List LOp → WList W × List (Option Nat)
  | [] => (l, [])
  | o :: os => let r := ptrOp l o; let t := ptrRun r.list os; (t.1, r.val :: t.2)

/-- **C25**, one call: from pointers that represent `xs`, a call allowed by the
specification leaves pointers that represent the specified list, returns the specified
node, dereferences only nodes that are in the list (or the node given), and, for `enqueue`
and `remove`, no assertion fails. -/
theorem C25_call {l : WList W} {xs ys : List Nat} {r : Option Nat} (o : LOp)
    (h : Rep l xs) (hs : specOp xs o = some (ys, r)) :
    Rep (ptrOp l o).list ys ∧ (ptrOp l o).val = r ∧
      (∀ n ∈ (ptrOp l o).touched, n ∈ xs ∨ o = .enq n ∨ o = .rem n) ∧
      (o ≠ .deq → (ptrOp l o).ok = true) := by
  cases o with
  | enq n =>
    simp only [specOp] at hs
    split at hs
    · cases hs
    · rename_i hn
      simp only [Option.some.injEq, Prod.mk.injEq] at hs
      obtain ⟨rfl, rfl⟩ := hs
      refine ⟨h.enqueue hn, rfl, ?_, fun _ => by simp [ptrOp, WList.enqueue]⟩
      intro m hm
      simp only [ptrOp, WList.enqueue, h.head, List.mem_cons, Option.mem_toList] at hm
      rcases hm with rfl | hm
      · simp
      · exact .inl (List.mem_of_mem_head? hm)
  | deq =>
    simp only [specOp, Option.some.injEq, Prod.mk.injEq] at hs
    obtain ⟨rfl, rfl⟩ := hs
    rcases List.eq_nil_or_concat xs with rfl | ⟨xs', x, rfl⟩
    · simp [ptrOp, h.dequeue_nil, h]
    · rw [List.concat_eq_append] at h
      obtain ⟨h1, h2, h3⟩ := h.dequeue_val .waking
      refine ⟨by simpa [ptrOp] using h.dequeue .waking, by simp [ptrOp, h1], ?_, by simp⟩
      intro m hm
      simp only [ptrOp, h3, List.mem_cons, Option.mem_toList] at hm
      rcases hm with rfl | hm
      · simp
      · exact .inl (by simp [List.mem_of_getLast? hm])
  | rem n =>
    simp only [specOp, Option.some.injEq, Prod.mk.injEq] at hs
    obtain ⟨rfl, rfl⟩ := hs
    by_cases hn : n ∈ xs
    · obtain ⟨p, q, rfl⟩ := List.append_of_mem hn
      have hnp : n ∉ p := by
        have := h.nodup
        rw [List.nodup_append] at this
        exact fun hc => this.2.2 n hc n (by simp) rfl
      rw [List.erase_append_right _ hnp, List.erase_cons_head]
      obtain ⟨h1, h2⟩ := h.remove_ok
      refine ⟨h.remove, rfl, ?_, fun _ => h1⟩
      intro m hm
      simp only [ptrOp, h2, List.mem_cons, List.mem_append, Option.mem_toList] at hm
      rcases hm with rfl | hm | hm
      · simp
      · exact .inl (by simp [List.mem_of_getLast? hm])
      · exact .inl (by simp [List.mem_of_mem_head? hm])
    · obtain ⟨h1, h2, h3, h4, h5⟩ := h.remove_off hn
      rw [List.erase_of_not_mem hn]
      refine ⟨h.of_same h1 h2 (fun m => by simp [ptrOp, h3]), rfl, ?_, fun _ => h4⟩
      intro m hm
      simp only [ptrOp, h5, List.mem_singleton] at hm
      subst hm; simp

/-- **C25**, any number of calls: starting from the empty list, any sequence of calls that
never enqueues a node already in the list leaves pointers that represent exactly the
specified duplicate-free list, and the dequeues return exactly the specified nodes. -/
theorem C25_list_refines {ys : List Nat} {rs : List (Option Nat)} (os : List LOp)
    (hs : specRun [] os = some (ys, rs)) :
    Rep (ptrRun (WList.new : WList W) os).1 ys ∧ ys.Nodup ∧
      (ptrRun (WList.new : WList W) os).2 = rs := by
  have key : ∀ (os : List LOp) (l : WList W) (xs ys : List Nat) (rs : List (Option Nat)),
      Rep l xs → specRun xs os = some (ys, rs) →
      Rep (ptrRun l os).1 ys ∧ (ptrRun l os).2 = rs := by
    intro os
    induction os with
    | nil =>
      intro l xs ys rs h hs
      simp only [specRun, Option.some.injEq, Prod.mk.injEq] at hs
      obtain ⟨rfl, rfl⟩ := hs
      exact ⟨h, rfl⟩
    | cons o os ih =>
      intro l xs ys rs h hs
      simp only [specRun, Option.bind_eq_bind, Option.pure_def] at hs
      cases h1 : specOp xs o with
      | none => simp [h1] at hs
      | some a =>
        obtain ⟨zs, r⟩ := a
        cases h2 : specRun zs os with
        | none => simp [h1, h2] at hs
        | some b =>
          obtain ⟨ws, rs'⟩ := b
          simp only [h1, h2, Option.bind_some, Option.some.injEq, Prod.mk.injEq] at hs
          obtain ⟨rfl, rfl⟩ := hs
          obtain ⟨g1, g2, _⟩ := C25_call o h h1
          obtain ⟨g3, g4⟩ := ih _ _ _ _ g1 h2
          exact ⟨g3, by simp [ptrRun, g2, g4]⟩
  obtain ⟨h1, h2⟩ := key os _ [] ys rs Rep.init hs
  exact ⟨h1, h1.nodup, h2⟩

/-- Following `next` from an address, at most `fuel` nodes. -/
def walkNext (node : Nat → Node W) : Nat → Option Nat → List Nat
  | 0, _ => []
  | _, none => []
  | fuel + 1, some n => n :: walkNext node fuel (node n).next

/-- Following `prev` from an address, at most `fuel` nodes. -/
def walkPrev (node : Nat → Node W) : Nat → Option Nat → List Nat
  | 0, _ => []
  | _, none => []
  | fuel + 1, some n => n :: walkPrev node fuel (node n).prev

/-- **C25**, what a traversal sees: if the pointers represent `xs` then following `next`
from the head visits exactly `xs` and stops, and following `prev` from the tail visits the
same nodes in the opposite order and stops, however large the fuel. -/
theorem C25_traversal {l : WList W} {xs : List Nat} (h : Rep l xs) (k : Nat)
    (hk : xs.length ≤ k) :
    walkNext l.node k l.head = xs ∧ walkPrev l.node k l.tail = xs.reverse := by
  constructor
  · have key : ∀ (t c : List Nat) (k : Nat), xs = c ++ t → t.length ≤ k →
        walkNext l.node k t.head? = t := by
      intro t
      induction t with
      | nil => intro c k _ _; cases k <;> rfl
      | cons a t ih =>
        intro c k hx hk
        cases k with
        | zero => simp at hk
        | succ k =>
          simp only [List.head?_cons, walkNext]
          rw [(h.links c a t hx).2, ih (c ++ [a]) k (by rw [hx]; simp) (by simpa using hk)]
    rw [h.head]; exact key xs [] k rfl hk
  · have key : ∀ (n : Nat) (c d : List Nat) (k : Nat), c.length = n → xs = c ++ d → n ≤ k →
        walkPrev l.node k c.getLast? = c.reverse := by
      intro n
      induction n with
      | zero =>
        intro c d k hc _ _
        cases List.length_eq_zero_iff.mp hc
        cases k <;> rfl
      | succ n ih =>
        intro c d k hc hx hk
        rcases List.eq_nil_or_concat c with rfl | ⟨c', a, rfl⟩
        · simp at hc
        · cases k with
          | zero => omega
          | succ k =>
            simp only [List.concat_eq_append, List.getLast?_append, List.getLast?_singleton,
              Option.some_or, walkPrev, List.reverse_append, List.reverse_cons,
              List.reverse_nil, List.nil_append, List.cons_append]
            rw [(h.links c' a d (by rw [hx]; simp)).1,
              ih c' (a :: d) k (by simpa using hc) (by rw [hx]; simp) (by omega)]
    rw [h.tail]; exact key xs.length xs [] k rfl (by simp) hk

/-- Three waiters queue up, the middle one cancels, the oldest is dequeued, the cancelled
one queues up again: the sequence is allowed by the specification. -/
def demoOps : List LOp := [.enq 1, .enq 2, .enq 3, .rem 2, .deq, .enq 2, .rem 7, .deq]

example : specRun [] demoOps =
    some ([2], [none, none, none, none, some 1, none, none, some 3]) := by decide

example : (ptrRun (WList.new : WList Nat) demoOps).1.head = some 2 ∧
    (ptrRun (WList.new : WList Nat) demoOps).2 =
      [none, none, none, none, some 1, none, none, some 3] :=
  ⟨by decide, (C25_list_refines (W := Nat) (ys := [2]) demoOps (by decide)).2.2⟩

example : Rep (ptrRun (WList.new : WList Nat) [.enq 1, .enq 2, .enq 3]).1 [3, 2, 1] :=
  (C25_list_refines (rs := [none, none, none]) _ (by decide)).1

end Thingbuf.Queue
