import Verif.Model.Key

/-!
# `Key::merge` (`src/Key.cpp:187-244, 418-530`)

A `Packet::Tag::Ptr` is a node: an address, the packet it points to, and the octets `raw()` returns for the packet. Two pointers
are compared with `==` by tag and octets (Packet.h:179-187), but ordered in a `multimap` by address, which is arbitrary. `raw()`
throws only for secret key packets whose string-to-key specifier is missing; the program then throws at the first comparison
with that packet (every key packet is compared with something), the model when the tables have been built.
-/
namespace OpenPGP

/-- A pointer to a packet. -/
structure Node (E : Type) where
  addr : Nat
  pkt : Pkt E
  octets : Bytes
  deriving DecidableEq, Repr

namespace Node
variable {E : Type}

/-- `get_tag()` -/
def tag (n : Node E) : Nat := n.pkt.body.tag

/-- `operator==` for `Tag::Ptr` (Packet.h:179-182). -/
def same (a b : Node E) : Bool := a.tag == b.tag && a.octets == b.octets

/-- The node for a packet at an address; the octets are those of `raw()`, and none when that throws. -/
def make (rawE : E → Bytes) (addr : Nat) (p : Pkt E) : Node E :=
  ⟨addr, p, match p.body.raw rawE with | .ok o => o | _ => []⟩

/-- `raw()` returns. -/
def readable (rawE : E → Bytes) (n : Node E) : Bool := match n.pkt.body.raw rawE with | .ok _ => true | _ => false

end Node

variable {E : Type}

/-- `Key::SigPairs`, a `std::multimap` (Key.h:40): its elements in order of iteration. -/
abbrev SigPairs (E : Type) := List (Node E × Node E)

namespace SigPairs

/-- `multimap::insert`: behind the elements whose key is not greater. -/
def insert (sp : SigPairs E) (x : Node E × Node E) : SigPairs E :=
  match sp with
  | [] => [x]
  | y :: sp => if x.1.addr < y.1.addr then x :: y :: sp else y :: insert sp x

/-- `multimap::insert(first, last)`. -/
def insertAll (sp : SigPairs E) (l : SigPairs E) : SigPairs E := l.foldl insert sp

/-- `Key::get_elements_by_key` (Key.cpp:418-426) over the whole map. -/
def byKey (sp : SigPairs E) (k : Node E) : List (Node E) := (sp.filter fun x => x.1.same k).map (·.2)

end SigPairs

/-- `Key::pkey` (Key.h:43-50), with the three pointers of the loop of `get_pkey`. -/
structure PKey (E : Type) where
  keySigs : SigPairs E
  uids : SigPairs E
  subKeys : SigPairs E
  uidAttr : SigPairs E
  uidList : List (Node E)
  lastUser : Option (Node E)
  lastUid : Option (Node E)
  lastSub : Option (Node E)

namespace PKey

/-- Start of `get_pkey` (Key.cpp:191-195). -/
def empty : PKey E := ⟨[], [], [], [], [], none, none, none⟩

/-- One pass of the loop of `get_pkey` (Key.cpp:196-241) for the packet `n`; `key` is the primary key. -/
def step (key : Node E) (pk : PKey E) (n : Node E) : Out (PKey E) :=
  if n.tag = 2 then
    match pk.lastUser, pk.lastSub with
    | none, none => .ok { pk with keySigs := pk.keySigs.insert (key, n) }
    | some u, none => .ok { pk with uids := pk.uids.insert (u, n) }
    | none, some s => .ok { pk with subKeys := pk.subKeys.insert (s, n) }
    | some _, some _ => .throw
  else if n.tag = 17 then
    match pk.lastUid with
    | none => .throw
    | some u => .ok { pk with uidAttr := pk.uidAttr.insert (u, n), lastUser := some n, lastSub := none }
  else if n.tag = 13 then
    .ok { pk with uidList := pk.uidList ++ [n], lastUid := some n, lastUser := some n, lastSub := none }
  else if n.tag = 7 ∨ n.tag = 14 then .ok { pk with lastUser := none, lastUid := none, lastSub := some n }
  else .throw

/-- The loop of `get_pkey`. -/
def loop (key : Node E) : PKey E → List (Node E) → Out (PKey E)
  | pk, [] => .ok pk
  | pk, n :: ns => do
    let pk ← step key pk n
    loop key pk ns

end PKey

/-- `Key::get_pkey` (Key.cpp:193-244): the primary key and the tables. -/
def getPkey (kind : KeyKind) (l : List (Node E)) : Out (Node E × PKey E) := do
  let good ← KeyObj.meaningfulBodies kind (l.map (·.pkt.body))
  if !good then .throw
  else match l with
    | [] => .ub
    | key :: rest => do
      let pk ← PKey.loop key .empty rest
      return (key, pk)

namespace Merge

/-- `std::find(np.begin(), np.end(), p) != np.end()`. -/
def present (np : List (Node E)) (p : Node E) : Bool := np.any (·.same p)

/-- `if (std::find(..) == end) push_back` -/
def push (np : List (Node E)) (p : Node E) : List (Node E) := if present np p then np else np ++ [p]

/-- The loop pushing those of a list of packets that are not yet there. -/
def pushAll (np : List (Node E)) (ps : List (Node E)) : List (Node E) := ps.foldl push np

/-- The user attributes of a user ID with their signatures (Key.cpp:457-468, 505-517). -/
def pushAttrs (sp : SigPairs E) (np : List (Node E)) (uas : List (Node E)) : List (Node E) :=
  uas.foldl (fun np u => if present np u then np else pushAll (np ++ [u]) (sp.byKey u)) np

/-- One pass of the loop of `Key::flatten` (Key.cpp:484-522). -/
def flattenStep (sp ua : SigPairs E) (np : List (Node E)) (x : Node E × Node E) : List (Node E) :=
  if x.1.tag = 17 then np
  else if present np x.1 then np
  else
    let np := pushAll (np ++ [x.1]) (sp.byKey x.1)
    if x.1.tag = 13 then pushAttrs sp np (ua.byKey x.1) else np

/-- `Key::flatten` (Key.cpp:484-522). -/
def flatten (sp ua : SigPairs E) (np : List (Node E)) : List (Node E) := sp.foldl (flattenStep sp ua) np

/-- One user ID of `uid_list` in `merge` (Key.cpp:452-470). -/
def restStep (uids ua : SigPairs E) (np : List (Node E)) (p : Node E) : List (Node E) :=
  if present np p then np else pushAttrs uids (np ++ [p]) (ua.byKey p)

/-- The new packet list of `Key::merge` (Key.cpp:436-472) from the primary key and the joined tables. -/
def build (key : Node E) (keySigs uids subKeys ua : SigPairs E) (uidList : List (Node E)) : List (Node E) :=
  let np := pushAll [key] (keySigs.map (·.2))
  let np := flatten uids ua np
  let np := uidList.foldl (restStep uids ua) np
  flatten subKeys ua np

end Merge

/-- `Key::merge` (Key.cpp:428-482): the new packet list of the object, and whether the call returns (it throws, after having
replaced the packets, when the result is not meaningful). -/
def mergeNodes (rawE : E → Bytes) (kind kind' : KeyKind) (l l' : List (Node E)) : Out (List (Node E) × Bool) := do
  let (key, a) ← getPkey kind l
  let (key', b) ← getPkey kind' l'
  if !(l ++ l').all (Node.readable rawE) then .throw
  else if !key.same key' then .throw
  else do
    let np := Merge.build key (a.keySigs.insertAll b.keySigs) (a.uids.insertAll b.uids) (a.subKeys.insertAll b.subKeys)
      (a.uidAttr.insertAll b.uidAttr) (a.uidList ++ b.uidList)
    let good ← KeyObj.meaningfulBodies kind (np.map (·.pkt.body))
    return (np, good)

/-- `Key::merge` on key objects whose packets are stored at the addresses `addr` and `addr'`. -/
def KeyObj.merge (rawE : E → Bytes) (addr addr' : Nat → Nat) (k k' : KeyObj E) : Out (KeyObj E × Bool) := do
  let (np, good) ← mergeNodes rawE k.kind k'.kind (k.packets.mapIdx fun i p => Node.make rawE (addr i) p)
    (k'.packets.mapIdx fun i p => Node.make rawE (addr' i) p)
  return (⟨k.kind, np.map (·.pkt)⟩, good)

end OpenPGP
