/-!
  Model of the intrusive circular list of include/api/aosl_list.h.

  Memory is a pair of total maps from addresses to the two fields of `struct aosl_list_head`. Every
  function performs the reads and writes of the C function in the order of the source. An address is a
  natural number. Not modelled: `container_of` (pure pointer arithmetic) and the iteration macros other
  than `aosl_list_for_each` and `aosl_list_for_each_prev`.
-/
namespace Verif.DList

/-- Belongs to the model of aosl_list.h:23-368. -/
abbrev Addr := Nat

/-- Memory: the `next` and `prev` field of each address. aosl_list.h:27-30 -/
structure Heap where
  next : Addr → Addr
  prev : Addr → Addr

/-- `a->next = v`. Belongs to the model of aosl_list.h:23-368. -/
def Heap.setNext (h : Heap) (a v : Addr) : Heap := { h with next := fun x => if x = a then v else h.next x }
/-- `a->prev = v`. Belongs to the model of aosl_list.h:23-368. -/
def Heap.setPrev (h : Heap) (a v : Addr) : Heap := { h with prev := fun x => if x = a then v else h.prev x }

/-- aosl_list.h:23-24 -/
def poison1 : Addr := 0x00100100 + 1
/-- Belongs to the model of aosl_list.h:23-368. -/
def poison2 : Addr := 0x00200200 + 3

/-- aosl_list.h:38-42 -/
def headInit (h : Heap) (l : Addr) : Heap := (h.setNext l l).setPrev l l

/-- aosl_list.h:44-48 -/
def headPoison (h : Heap) (l : Addr) : Heap := (h.setNext l poison1).setPrev l poison2

/-- aosl_list.h:50-56 -/
def addRaw (h : Heap) (new prev next : Addr) : Heap :=
  let h := h.setPrev next new
  let h := h.setNext new next
  let h := h.setPrev new prev
  h.setNext prev new

/-- aosl_list.h:64-67 -/
def add (h : Heap) (new head : Addr) : Heap := addRaw h new head (h.next head)
/-- aosl_list.h:76-79 -/
def addTail (h : Heap) (new head : Addr) : Heap := addRaw h new (h.prev head) head

/-- aosl_list.h:81-85 -/
def delRaw (h : Heap) (prev next : Addr) : Heap := (h.setPrev next prev).setNext prev next
/-- aosl_list.h:87-90 -/
def delEntry (h : Heap) (e : Addr) : Heap := delRaw h (h.prev e) (h.next e)
/-- aosl_list.h:92-96 -/
def del (h : Heap) (e : Addr) : Heap := headPoison (delRaw h (h.prev e) (h.next e)) e
/-- aosl_list.h:98-102 -/
def delInit (h : Heap) (e : Addr) : Heap := headInit (delEntry h e) e

/-- aosl_list.h:109-113 -/
def move (h : Heap) (e head : Addr) : Heap := add (delEntry h e) e head
/-- aosl_list.h:120-125 -/
def moveTail (h : Heap) (e head : Addr) : Heap := addTail (delEntry h e) e head

/-- aosl_list.h:127-130 -/
def empty (h : Heap) (head : Addr) : Bool := h.next head == head

/-- aosl_list.h:160-163 -/
def isSingular (h : Heap) (head : Addr) : Bool := !empty h head && (h.next head == h.prev head)

/-- aosl_list.h:165-175 -/
def spliceRaw (h : Heap) (list prev next : Addr) : Heap :=
  let first := h.next list
  let last := h.prev list
  let h := h.setPrev first prev
  let h := h.setNext prev first
  let h := h.setNext last next
  h.setPrev next last

/-- aosl_list.h:177-183 -/
def spliceTailInit (h : Heap) (list head : Addr) : Heap :=
  if !empty h list then headInit (spliceRaw h list (h.prev head) head) list else h

/-- aosl_list.h:228-234 aosl_list_head -/
def headOf (h : Heap) (head : Addr) : Option Addr := if !empty h head then some (h.next head) else none
/-- aosl_list.h:236-243 aosl_list_next -/
def nextOf (h : Heap) (head node : Addr) : Option Addr :=
  if h.next node != head then some (h.next node) else none
/-- aosl_list.h:245-252 aosl_list_prev -/
def prevOf (h : Heap) (head node : Addr) : Option Addr :=
  if h.prev node != head then some (h.prev node) else none
/-- aosl_list.h:254-260 aosl_list_tail -/
def tailOf (h : Heap) (head : Addr) : Option Addr := if !empty h head then some (h.prev head) else none

/-- aosl_list.h:304-313 -/
def removeHead (h : Heap) (head : Addr) : Heap × Option Addr :=
  if !empty h head then (del h (h.next head), some (h.next head)) else (h, none)
/-- aosl_list.h:315-324 -/
def removeHeadInit (h : Heap) (head : Addr) : Heap × Option Addr :=
  if !empty h head then (delInit h (h.next head), some (h.next head)) else (h, none)
/-- aosl_list.h:348-357 -/
def removeTail (h : Heap) (head : Addr) : Heap × Option Addr :=
  if !empty h head then (del h (h.prev head), some (h.prev head)) else (h, none)
/-- aosl_list.h:359-368 -/
def removeTailInit (h : Heap) (head : Addr) : Heap × Option Addr :=
  if !empty h head then (delInit h (h.prev head), some (h.prev head)) else (h, none)

/-- aosl_list.h:191-192 aosl_list_for_each: the loop starting with `pos` visits the listed nodes and
    then stops. -/
inductive ForEach (h : Heap) (head : Addr) : Addr → List Addr → Prop where
  | stop : ForEach h head head []
  | go {pos l} : pos ≠ head → ForEach h head (h.next pos) l → ForEach h head pos (pos :: l)

/-- aosl_list.h:198-199 aosl_list_for_each_prev -/
inductive ForEachPrev (h : Heap) (head : Addr) : Addr → List Addr → Prop where
  | stop : ForEachPrev h head head []
  | go {pos l} : pos ≠ head → ForEachPrev h head (h.prev pos) l → ForEachPrev h head pos (pos :: l)

end Verif.DList
