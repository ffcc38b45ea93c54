import Verif.Model.Packets
import Verif.Props.C06

/-!
# `src/Message.cpp`: the structure check

`std::list` is a circular list: stepping over the end is taken to be harmless (libstdc++), reading the element at `end()` is
undefined behaviour.
-/
namespace OpenPGP

/-- `Message::Token` (Message.h:68-90), without `NONE`. -/
inductive Token where
  | openMessage | encryptedMessage | signedMessage | compressedMessage | literalMessage | esk | eskSequence | encryptedData
  | onePassSignedMessage | cdp | ldp | pkeskp | skeskp | sedp | seipdp | opsp | sp
  deriving DecidableEq, Repr

namespace Token

/-- The token of a packet tag in `Message::match` (Message.cpp:308-340). -/
def ofTag (tag : Nat) : Option Token :=
  match tag with
  | 8 => some cdp
  | 11 => some ldp
  | 1 => some pkeskp
  | 3 => some skeskp
  | 9 => some sedp
  | 18 => some seipdp
  | 4 => some opsp
  | 2 => some sp
  | _ => none

/-- The loop collecting the tokens: `none` as soon as a packet of another kind is met (Message.cpp:305-342). -/
def ofTags : List Nat → Option (List Token)
  | [] => some []
  | t :: ts => match ofTag t, ofTags ts with
    | some k, some ks => some (k :: ks)
    | _, _ => none

/-- The rules that look at one token only: `OpenMessage`, `CompressedMessage`, `LiteralMessage`, `EncryptedSessionKey`, the
first half of `ESKSequence`, `EncryptedData`, the first half of `EncryptedMessage` and of `SignedMessage`
(Message.cpp:8-71, 104-109). No token is the subject of two rules, so their order among themselves does not matter. -/
def unary : Token → Option Token
  | encryptedMessage | signedMessage | compressedMessage | literalMessage => some openMessage
  | cdp => some compressedMessage
  | ldp => some literalMessage
  | pkeskp | skeskp => some esk
  | esk => some eskSequence
  | sedp | seipdp => some encryptedData
  | encryptedData => some encryptedMessage
  | onePassSignedMessage => some signedMessage
  | _ => none

/-- All nine rules tried at one position, on the token there and the tokens behind it (Message.cpp:8-118, in the order of
350-358): the list from that position on after the reduction, or `none`. Reading `*it2` or `*it3` at the end of the list is
`atEnd`: undefined, or "matches no rule" when the value found there happens to be none the rules look for. -/
def reduceAt (atEnd : Out (Option (List Token))) (t : Token) (rest : List Token) : Out (Option (List Token)) :=
  match unary t with
  | some t' => .ok (some (t' :: rest))
  | none =>
    match t with
    | eskSequence =>
      match rest with
      | [] => atEnd
      | esk :: r => .ok (some (eskSequence :: r))
      | encryptedData :: r => .ok (some (encryptedMessage :: r))
      | _ => .ok none
    | opsp =>
      match rest with
      | [] => atEnd
      | [openMessage] => atEnd
      | openMessage :: sp :: r => .ok (some (onePassSignedMessage :: r))
      | _ => .ok none
    | sp =>
      match rest with
      | [] => atEnd
      | openMessage :: r => .ok (some (signedMessage :: r))
      | _ => .ok none
    | _ => .ok none

/-- The `for` loop over the positions (Message.cpp:347-363): the list after the first reduction that applies. -/
def reduceOnce (atEnd : Out (Option (List Token))) : List Token → Out (Option (List Token))
  | [] => .ok none
  | t :: rest =>
    match reduceAt atEnd t rest with
    | .ok (some l) => .ok (some l)
    | .ok none => (Option.map (t :: ·)) <$> reduceOnce atEnd rest
    | .throw => .throw
    | .ub => .ub
    | .diverge => .diverge

/-- The `while` loop (Message.cpp:345-368). -/
def matchLoop (atEnd : Out (Option (List Token))) (token : Token) : (fuel : Nat) → List Token → Out Bool
  | 0, _ => .diverge
  | fuel + 1, s =>
    if s = [token] then .ok true
    else
      match reduceOnce atEnd s with
      | .ok (some s') => matchLoop atEnd token fuel s'
      | .ok none => .ok false
      | .throw => .throw
      | .ub => .ub
      | .diverge => .diverge

/-- Tokens that can be asked for (Message.cpp:292-301). -/
def askable : Token → Bool
  | openMessage | encryptedMessage | signedMessage | compressedMessage | literalMessage => true
  | _ => false

end Token

/-- `Message::match` (Message.cpp:284-365) on the packet tags, for an object whose type is `MESSAGE` (other types give false).
The iteration bound is proved never to be reached (`C29_terminates`). -/
def matchTagsWith (atEnd : Out (Option (List Token))) (tags : List Nat) (token : Token) : Out Bool :=
  if tags = [] then .ok false
  else if !token.askable then .ok false
  else match Token.ofTags tags with
    | none => .ok false
    | some s => Token.matchLoop atEnd token (4 * s.length + 1) s

/-- `Message::match` with the C++ meaning of reading at `end()`: undefined behaviour. -/
def matchTags (tags : List Nat) (token : Token) : Out Bool := matchTagsWith .ub tags token

/-- `Message::meaningful` (Message.cpp:371-377). -/
def messageMeaningful (tags : List Nat) : Out Bool := matchTags tags .openMessage

end OpenPGP
