/-
Model of the operations of Python's `heapq` used by `/repo/src/repast4py/schedule.py` (lines 119, 309, 419, 424:
`heapq.heappush`, `heapq.heappop`, `queue[0]`). The algorithms are those of CPython's `Lib/heapq.py` (the C version does the same
comparisons and moves). Lists are Python lists; the comparison is a parameter.
-/
namespace Repast.Heapq

variable {α : Type} (lt : α → α → Bool)

/-- `heapq._siftdown(heap, 0, pos)`: `newitem` moves from `pos` towards the root. The position `pos` of `heap` is the hole:
its content has been saved in `newitem`. -/
def siftdown (heap : List α) (newitem : α) (pos : Nat) : List α :=
  if _h : 0 < pos then
    match heap[(pos - 1) / 2]? with
    | some parent => if lt newitem parent then siftdown (heap.set pos parent) newitem ((pos - 1) / 2) else heap.set pos newitem
    | none => heap.set pos newitem
  else heap.set pos newitem
termination_by pos
decreasing_by omega

/-- `heapq.heappush`: append, then `_siftdown(heap, 0, len(heap)-1)`. -/
def heappush (heap : List α) (item : α) : List α := siftdown lt (heap ++ [item]) item heap.length

/-- The child that `heapq._siftup` moves up: the smaller one, the left one on ties is not smaller, so the right one. -/
def smallerChild (heap : List α) (pos : Nat) : Nat :=
  match heap[2 * pos + 1]?, heap[2 * pos + 2]? with
  | some l, some r => if lt l r then 2 * pos + 1 else 2 * pos + 2
  | _, _ => 2 * pos + 1

/-- `heapq._siftup(heap, 0)`: the hole moves down to a leaf, then `newitem` is placed with `_siftdown`. -/
def siftup (heap : List α) (newitem : α) (pos : Nat) : List α :=
  match h : heap[smallerChild lt heap pos]? with
  | some c => siftup (heap.set pos c) newitem (smallerChild lt heap pos)
  | none => siftdown lt heap newitem pos
termination_by heap.length - pos
decreasing_by
  have h1 := (List.getElem?_eq_some_iff.1 h).1
  have h2 : pos < smallerChild lt heap pos := by
    unfold smallerChild
    split
    · split <;> omega
    · omega
  simp only [List.length_set]
  omega

/-- `heapq.heappop`: the last element replaces the root and is sifted. -/
def heappop (heap : List α) : Option (α × List α) :=
  match heap.getLast? with
  | none => none
  | some last =>
    match heap.dropLast with
    | [] => some (last, [])
    | root :: rest => some (root, siftup lt (root :: rest) last 0)

end Repast.Heapq
