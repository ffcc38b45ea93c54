import Verif.Base

/-!
# RFC 4880 11.3: the grammar of OpenPGP messages, over packet tags

The rules, word for word:

    OpenPGP Message :- Encrypted Message | Signed Message | Compressed Message | Literal Message.
    Compressed Message :- Compressed Data Packet.
    Literal Message :- Literal Data Packet.
    ESK :- Public-Key Encrypted Session Key Packet | Symmetric-Key Encrypted Session Key Packet.
    ESK Sequence :- ESK | ESK Sequence, ESK.
    Encrypted Data :- Symmetrically Encrypted Data Packet | Symmetrically Encrypted Integrity Protected Data Packet
    Encrypted Message :- Encrypted Data | ESK Sequence, Encrypted Data.
    One-Pass Signed Message :- One-Pass Signature Packet, OpenPGP Message, Corresponding Signature Packet.
    Signed Message :- Signature Packet, OpenPGP Message | One-Pass Signed Message.
-/
namespace OpenPGP.Rfc

/-- The nonterminals. -/
inductive NT where
  | message | encrypted | signed | compressed | literal | esk | eskSeq | encData | onePass
  deriving DecidableEq, Repr

/-- `Derives X tags`: the sequence of packet tags is derived from the nonterminal `X`. -/
inductive Derives : NT → List Nat → Prop
  | msgEncrypted {w} : Derives .encrypted w → Derives .message w
  | msgSigned {w} : Derives .signed w → Derives .message w
  | msgCompressed {w} : Derives .compressed w → Derives .message w
  | msgLiteral {w} : Derives .literal w → Derives .message w
  | compressed : Derives .compressed [8]
  | literal : Derives .literal [11]
  | eskPublic : Derives .esk [1]
  | eskSymmetric : Derives .esk [3]
  | eskFirst {w} : Derives .esk w → Derives .eskSeq w
  | eskNext {v w} : Derives .eskSeq v → Derives .esk w → Derives .eskSeq (v ++ w)
  | dataPlain : Derives .encData [9]
  | dataProtected : Derives .encData [18]
  | encData {w} : Derives .encData w → Derives .encrypted w
  | encKeys {v w} : Derives .eskSeq v → Derives .encData w → Derives .encrypted (v ++ w)
  | onePass {w} : Derives .message w → Derives .onePass ([4] ++ w ++ [2])
  | signedPrefix {w} : Derives .message w → Derives .signed ([2] ++ w)
  | signedOnePass {w} : Derives .onePass w → Derives .signed w

end OpenPGP.Rfc
