import Verif.Model.Crypt

/-!
# Text for people: `show`, `src/common/HumanReadable.cpp`

What a `show` function does to the `HumanReadable` it gets is a list of actions; a function that throws or indexes outside a vector after some of them is modelled as failing
at once (the text is lost with the exception). `show_time` (pgptime.cpp:16-29, which uses `gmtime`), the `size` members, the running number of an image and whether a file can
be opened are parameters.
-/
namespace OpenPGP

/-! ## `HumanReadable` -/

/-- `HumanReadable` (HumanReadable.h:34-39) and the files written so far. -/
structure Hr where
  prefix_ : Bytes
  indent : Bytes
  level : Nat
  data : Bytes
  files : List (Bytes × Bytes)
  deriving DecidableEq, Repr

/-- `hr << string`, `hr << DOWN`, `hr << UP`, and a file that is written. -/
inductive Act where
  | line (s : Bytes)
  | down
  | up
  | file (name content : Bytes)
  deriving DecidableEq, Repr

/-- `HumanReadable(indent_size, depth)` (HumanReadable.cpp:3-17) with spaces. -/
def Hr.fresh (indentSize depth : Nat) : Hr := ⟨(List.replicate depth (List.replicate indentSize 32)).flatten, List.replicate indentSize 32, 0, [], []⟩

/-- `operator<<` (HumanReadable.cpp:46-67) with `up` and `down` (HumanReadable.cpp:26-36). -/
def Hr.act (h : Hr) : Act → Hr
  | .line s => { h with data := h.data ++ h.prefix_ ++ (List.replicate h.level h.indent).flatten ++ s ++ [10] }
  | .down => { h with level := h.level + 1 }
  | .up => { h with level := h.level - 1 }
  | .file n c => { h with files := h.files ++ [(n, c)] }

/-- All actions in order. -/
def Hr.run (h : Hr) (l : List Act) : Hr := l.foldl Hr.act h

/-! ## Names and numbers -/

/-- `std::to_string` of an unsigned number. -/
def dec (n : Nat) : Bytes := (Nat.toDigits 10 n).map fun c => UInt8.ofNat c.toNat

/-- `std::to_string` of a `char`. -/
def decChar (c : UInt8) : Bytes := if c < 128 then dec c.toNat else 45 :: dec (256 - c.toNat)

/-- `get_mapped` (includes.h:106-113). -/
def mapped (l : List (Nat × String)) (k : Nat) : Bytes := ascii ((l.lookup k).getD "Unknown")

/-- The entries 100 to 110 of many tables. -/
def reserved (s : String) : List (Nat × String) := [100, 101, 102, 103, 104, 105, 106, 107, 108, 109, 110].map fun k => (k, s)

/-- `Packet::NAME` (Packet.h:88-111). -/
def tagNames : List (Nat × String) :=
  [(0, "Reserved - a packet tag MUST NOT have this value"), (1, "Public-Key Encrypted Session Key"), (2, "Signature"), (3, "Symmetric-Key Encrypted Session Key"),
   (4, "One-Pass Signature"), (5, "Secret-Key"), (6, "Public-Key"), (7, "Secret-Subkey"), (8, "Compressed Data"), (9, "Symmetrically (Conventional) Encrypted Data"),
   (10, "Marker Packet (Obsolete Literal Packet)"), (11, "Literal Data"), (12, "(Keyring) Trust"), (13, "User ID"), (14, "Public-Subkey (Obsolete Comment Packet)"),
   (17, "User Attribute"), (18, "Sym. Encrypted Integrity Protected Data"), (19, "Modification Detection Code"), (60, "Private or Experimental Values"),
   (61, "Private or Experimental Values"), (62, "Private or Experimental Values"), (63, "Private or Experimental Values")]

/-- `Subpacket::Tag2::NAME` (Tag2/Subpacket.h:129-179). -/
def subNames : List (Nat × String) :=
  [(0, "Reserved"), (1, "Reserved"), (2, "Signature Creation Time"), (3, "Signature Expiration Time"), (4, "Exportable Certification"), (5, "Trust Signature"),
   (6, "Regular Expression"), (7, "Revocable"), (8, "Reserved"), (9, "Key Expiration Time"), (10, "Placeholder for Backward Compatibility"),
   (11, "Preferred Symmetric Algorithms"), (12, "Revocation Key"), (13, "Reserved"), (14, "Reserved"), (15, "Reserved"), (16, "Issuer"), (17, "Reserved"), (18, "Reserved"),
   (19, "Reserved"), (20, "Notation Data"), (21, "Preferred Hash Algorithms"), (22, "Preferred Compression Algorithms"), (23, "Key Server Preferences"),
   (24, "Preferred Key Server"), (25, "Primary User ID"), (26, "Policy URI"), (27, "Key Flags"), (28, "Signer's User ID"), (29, "Reason for Revocation"), (30, "Features"),
   (31, "Signature Target"), (32, "Embedded Signature")] ++ reserved "Private/Experimental algorithm"

/-- `PKA::NAME` (PKAs.h:68-95). -/
def pkaNames : List (Nat × String) :=
  [(1, "RSA (Encrypt or Sign)"), (2, "RSA Encrypt-Only"), (3, "RSA Sign-Only"), (16, "ELGAMAL (Encrypt-Only)"), (17, "DSA"), (18, "Reserved for Elliptic Curve"),
   (19, "Reserved for ECDSA"), (20, "Reserved (formerly ELGAMAL Encrypt or Sign)"), (21, "Reserved for Diffie-Hellman (X9.42), as defined for IETF-S / MIME)")] ++
    reserved "Private/Experimental algorithm"

/-- `Hash::NAME` (Hashes.h:75-98). -/
def hashNames : List (Nat × String) :=
  [(1, "MD5"), (2, "SHA1"), (3, "RIPEMD160"), (4, "Reserved"), (5, "Reserved"), (6, "Reserved"), (7, "Reserved"), (8, "SHA256"), (9, "SHA384"), (10, "SHA512"),
   (11, "SHA224")] ++ reserved "Private/Experimental algorithm"

/-- `Sym::NAME` (Encryptions.h:85-111). -/
def symNames : List (Nat × String) :=
  [(0, "PLAINTEXT"), (1, "IDEA"), (2, "TRIPLEDES"), (3, "CAST5"), (4, "BLOWFISH"), (5, "Reserved"), (6, "Reserved"), (7, "AES128"), (8, "AES192"), (9, "AES256"),
   (10, "TWOFISH256"), (11, "CAMELLIA128"), (12, "CAMELLIA192"), (13, "CAMELLIA256")] ++ reserved "Private/Experimental algorithm"

/-- `Compression::NAME` (Compress.h:58-74). -/
def compNames : List (Nat × String) :=
  [(0, "UNCOMPRESSED"), (1, "ZIP {RFC1951}"), (2, "ZLIB {RFC1950}"), (3, "BZip2 {BZ2}")] ++ reserved "Private/Experimental algorithm"

/-- `Signature_Type::NAME` (sigtypes.h:161-177). -/
def sigNames : List (Nat × String) :=
  [(0x00, "Signature of a binary document."), (0x01, "Signature of a canonical text document"), (0x02, "Standalone signature"),
   (0x10, "Generic certification of a User ID and Public-Key packet"), (0x11, "Persona certification of a User ID and Public-Key packet"),
   (0x12, "Casual certification of a User ID and Public-Key packet"), (0x13, "Positive certification of a User ID and Public-Key packet"),
   (0x18, "Subkey Binding Signature"), (0x19, "Primary Key Binding Signature"), (0x1f, "Signature directly on a key"), (0x20, "Key revocation signature"),
   (0x28, "Subkey revocation signature"), (0x30, "Certification revocation signature"), (0x40, "Timestamp signature"), (0x50, "Third-Party Confirmation signature")]

/-- `Literal::NAME` (Tag11.h:84-88). -/
def literalNames : List (Nat × String) := [(0x62, "Binary"), (0x74, "Text"), (0x75, "UTF-8 Text")]

/-- `Key_Flags::NAME` (Sub27.h:92-100). -/
def keyFlagNames : List (Nat × String) :=
  [(1, "This key may be used to certify other keys"), (2, "This key may be used to sign data"), (4, "This key may be used to encrypt communications"),
   (8, "This key may be used to encrypt storage"), (16, "The private component of this key may have been split by a secret-sharing mechanism"),
   (32, "This key may be used for authentication"), (128, "The private component of this key may be in the possession of more than one person")]

/-- `Key_Server_Preferences::NAME` (Sub23.h:53-56). -/
def keyServerNames : List (Nat × String) := [(0, ""), (128, "NO-MODIFY")]

/-- `Revoke::NAME` (Sub29.h:41-58). -/
def revokeNames : List (Nat × String) :=
  [(0, "No reason specified"), (1, "Key is superceded"), (2, "Key material has been compromised"), (3, "Key is no longer used"),
   (32, "User ID information is no longer valid")] ++ reserved "Private Use"

/-- `Features_Flags::NAME` (Sub30.h:66-68). -/
def featureNames : List (Nat × String) := [(1, "Modification Detection (packets 18 and 19)")]

/-- `Notation::NAME` (Sub20.h:83-86). -/
def notationNames : List (Nat × String) := [(0, "none"), (128, "Human-Readable")]

/-- `Image_Attributes::NAME` (Tag17/Sub1.h:69-82). -/
def imageNames : List (Nat × String) := (1, "JPEG") :: reserved "Reserved for private/experimental use"

/-- `S2K::NAME` (s2k.h:71-87) in `S2K::show_title` (s2k.cpp:8-10), for the kinds that exist. -/
def S2K.title : S2K → Bytes
  | .simple _ => ascii "Simple S2K (s2k 0):"
  | .salted _ _ => ascii "Salted S2K (s2k 1):"
  | .iterated _ _ _ => ascii "Iterated and Salted S2K (s2k 3):"

/-! ## `show_dt` -/

/-- One unit of `show_dt` (pgptime.cpp:62-80) behind what is there already. -/
def dtUnit (out : Bytes) (n : Nat) (unit : String) : Bytes :=
  if n = 0 then out else out ++ (if out = [] then [] else [32]) ++ dec n ++ ascii (" " ++ unit) ++ if n > 1 then ascii "s" else []

/-- `show_dt` (pgptime.cpp:41-83). -/
def showDt (dt : Int) : Bytes :=
  if dt = 0 then ascii "now"
  else
    let n := dt.natAbs
    let out := if dt < 0 then ascii "-" else []
    dtUnit (dtUnit (dtUnit (dtUnit (dtUnit out (n / 31536000) "year") (n / 86400 % 365) "day") (n / 3600 % 24) "hour") (n / 60 % 60) "minute") (n % 60) "second"

/-! ## `show_contents` -/

/-- What `show` depends on besides the object. -/
structure ShowEnv (E : Type) where
  /-- `show_time` -/
  time : Nat → Bytes
  /-- the `size` member of a subpacket -/
  subSize : Sub E → Nat
  /-- the `size` member of an image subpacket, its running number `current`, and whether a file of that name can be opened -/
  attrSize : Nat → Nat
  imageNo : Nat → Nat
  opens : Bytes → Bool

/-- `pka` and its name, as most packets print it. -/
def pkaLine (pka : UInt8) : Bytes := ascii "Public Key Algorithm: " ++ mapped pkaNames pka.toNat ++ ascii " (pka " ++ dec pka.toNat ++ ascii ")"

def hashLine (h : UInt8) : Bytes := ascii "Hash Algorithm: " ++ mapped hashNames h.toNat ++ ascii " (hash " ++ dec h.toNat ++ ascii ")"

/-- `label (N bits): hex`. -/
def mpiLine (label : String) (m : Nat) : Act := .line (ascii label ++ ascii " (" ++ dec (bitsize m) ++ ascii " bits): " ++ mpitohex m)

/-- `S2K::show` (s2k.cpp:30-34) with `show_contents` of the three kinds (s2k.cpp:62-64, 115-118, 192-195). -/
def S2K.acts (s : S2K) : List Act :=
  [.line s.title, .down, .line (ascii "Hash: " ++ mapped hashNames s.hash.toNat ++ ascii " (hash " ++ dec s.hash.toNat ++ ascii ")")] ++
    (match s with
      | .simple _ => []
      | .salted _ salt => [.line (ascii "Salt: " ++ hexlify salt)]
      | .iterated _ salt c => [.line (ascii "Salt: " ++ hexlify salt), .line (ascii "Coded Count: " ++ dec (S2K.codedCount c) ++ ascii " (count " ++ dec c.toNat ++ ascii ")")]) ++
    [.up]

/-- `Tag1::show_contents` (Tag1.cpp:16-27). -/
def Tag1.acts (t : Tag1) : Out (List Act) := do
  let head := [Act.line (ascii "Version: " ++ dec t.version.toNat), .line (ascii "KeyID: " ++ hexlify t.keyid), .line (pkaLine t.pka)]
  if t.pka ≤ 3 then do
    let m ← vecAt t.mpi 0
    return head ++ [mpiLine "RSA m**e mod n" m]
  else if t.pka = 16 then do
    let a ← vecAt t.mpi 0
    let b ← vecAt t.mpi 1
    return head ++ [mpiLine "ELGAMAL g**k mod p" a, mpiLine "ELGAMAL m * y**k mod p" b]
  else return head

/-- The flags of an octet (for instance Sub27.cpp:12-19), from the lowest. -/
def flagActs (names : List (Nat × String)) (num : Nat → Bytes) (c : UInt8) : List Act :=
  ((List.range 8).filter fun i => c.toNat.testBit i).map fun i =>
    .line (ascii "Flag - " ++ mapped names (2 ^ i) ++ num (2 ^ i) ++ ascii ")")

/-- `show_contents` of the subpackets (Tag2/Sub*.cpp); `showE` is `show` of an embedded signature. -/
def SubBody.acts {E : Type} (env : ShowEnv E) (showE : E → Out (List Act)) : SubBody E → Out (List Act)
  | .sigTime t => .ok [.line (ascii "Creation Time: " ++ env.time t)]
  | .sigExpire dt => .ok [.line (ascii "Signature Expiration Time (Days): " ++ if dt ≠ 0 then env.time dt else ascii "Never")]
  | .exportable b => .ok [.line (ascii "Exportable: " ++ if b then ascii "True" else ascii "False")]
  | .trust l a => .ok [.line (ascii "Trust Level: " ++ dec l.toNat), .line (ascii "Trust Amount: " ++ dec a.toNat)]
  | .regex r => .ok [.line (ascii "Regular Expression: " ++ r)]
  | .revocable b => .ok [.line (ascii "Revocable: " ++ if b then ascii "True" else ascii "False")]
  | .keyExpire dt => .ok [.line (ascii "Key Expiration Time: " ++ if dt ≠ 0 then showDt dt ++ ascii " after key creation" else ascii "Never")]
  | .placeholder s => .ok [.line s]
  | .prefSym s => .ok (s.map fun c => .line (ascii "sym alg - " ++ mapped symNames c.toNat ++ ascii " (sym " ++ decChar c ++ ascii ")"))
  | .revKey c p f => .ok [.line (ascii "Class: " ++ dec c.toNat), .line (pkaLine p), .line (ascii "Fingerprint: " ++ f)]
  | .issuer k => .ok [.line (ascii "Key ID: " ++ hexlify k)]
  | .notation fl m n => .ok (fl.map (fun c => Act.line (ascii "Flag - " ++ mapped notationNames c.toNat ++ ascii " (not " ++ decChar c ++ ascii ")")) ++
      [.line (ascii "Name: " ++ m), .line (ascii "Value: " ++ n)])
  | .prefHash s => .ok (s.map fun c => .line (ascii "hash alg - " ++ mapped hashNames c.toNat ++ ascii " (hash " ++ decChar c ++ ascii ")"))
  | .prefComp s => .ok (s.map fun c => .line (ascii "comp alg - " ++ mapped compNames c.toNat ++ ascii " (comp " ++ decChar c ++ ascii ")"))
  | .keyServerPrefs s => .ok (s.flatMap (flagActs keyServerNames fun k => ascii " (key 0x" ++ makehex k 2 false))
  | .prefKeyServer s => .ok [.line (ascii "URI - " ++ s)]
  | .primary b => .ok [.line (ascii "Primary: " ++ if b then ascii "True" else ascii "False")]
  | .policy s => .ok [.line (ascii "Policy - " ++ s)]
  | .keyFlags s => .ok (s.flatMap (flagActs keyFlagNames fun k => ascii " (key 0x" ++ makehex k 2 false))
  | .signer s => .ok [.line (ascii "ID: " ++ s)]
  | .reason c w => .ok (.line (ascii "Reason " ++ dec c.toNat ++ ascii " - " ++ mapped revokeNames c.toNat) :: if c ≠ 0 then [.line (ascii "Comment - " ++ w)] else [])
  | .features s => .ok (s.flatMap (flagActs featureNames fun k => ascii " (feat " ++ dec k))
  | .target p a d => .ok [.line (pkaLine p), .line (hashLine a), .line (ascii "Hash: " ++ hexlify d)]
  | .embedded none => .ok []
  | .embedded (some e) => showE e

/-- `show_critical() + show_type()` (Subpacket.cpp:22-28, Tag2/Subpacket.cpp:9-11): `NAME.at` throws for a type without a name. -/
def Sub.title {E : Type} (env : ShowEnv E) (s : Sub E) : Out Bytes :=
  match subNames.lookup s.body.type with
  | some name => .ok ((if s.critical then ascii "Critical: " else []) ++ ascii name ++ ascii " Subpacket (sub " ++ dec s.body.type ++ ascii ") (" ++ dec (env.subSize s) ++ ascii " octets)")
  | none => .throw

/-- One pass of the loops over subpackets (Tag2.cpp:208-221, 230-243): the new value of `create_time` (a `uint32_t`) and what is shown; `Sub9::show` is Sub9.cpp:32-37. -/
def Sub.acts {E : Type} (env : ShowEnv E) (showE : E → Out (List Act)) (create : Nat) (s : Sub E) : Out (Nat × List Act) := do
  let title ← s.title env
  let create := match s.body with
    | .sigTime t => t
    | _ => create
  let l ← match s.body with
    | .keyExpire dt => .ok [Act.line (ascii "Key Expiration Time: " ++ if dt ≠ 0 then env.time ((create + dt) % 2 ^ 32) else ascii "Never")]
    | b => b.acts env showE
  return (create, [.line title, .down] ++ l ++ [.up])

/-- The loop over subpackets. -/
def subsActs {E : Type} (env : ShowEnv E) (showE : E → Out (List Act)) : (create : Nat) → List (Sub E) → Out (List Act)
  | _, [] => .ok []
  | create, s :: ss => do
    let (create, l) ← s.acts env showE create
    let ls ← subsActs env showE create ss
    return l ++ ls

/-- A list of subpackets with its title (Tag2.cpp:204-223, 225-245). -/
def subListActs {E : Type} (env : ShowEnv E) (showE : E → Out (List Act)) (title : String) (l : List (Sub E)) : Out (List Act) :=
  match l with
  | [] => .ok []
  | l => do
    let acts ← subsActs env showE 0 l
    return [.line (ascii title), .down] ++ acts ++ [.up]

/-- `Tag2::show_contents` (Tag2.cpp:186-262). -/
def Tag2.acts {E : Type} (env : ShowEnv E) (showE : E → Out (List Act)) (s : Tag2 E) : Out (List Act) := do
  let typeLine := Act.line (ascii "Signature Type: " ++ mapped sigNames s.type.toNat ++ ascii " (type 0x" ++ makehex s.type.toNat 2 false ++ ascii ")")
  let mid ← (if s.version < 4 then
      .ok [.line (ascii "Hashed Material:"), .down, typeLine, .line (ascii "Creation Time: " ++ env.time s.time), .line (ascii "Signer's Key ID: " ++ hexlify s.keyid),
        .line (pkaLine s.pka), .line (hashLine s.hash), .up]
    else if s.version = 4 then do
      let h ← subListActs env showE "Hashed Sub:" s.hashed
      let u ← subListActs env showE "Unhashed Sub:" s.unhashed
      return [typeLine, .line (pkaLine s.pka), .line (hashLine s.hash)] ++ h ++ u
    else .ok [])
  let mpis ← (if isRSA s.pka then do
      let m ← vecAt s.mpi 0
      return [mpiLine "RSA m**d mod n" m]
    else if s.pka = 17 then do
      let r ← vecAt s.mpi 0
      let t ← vecAt s.mpi 1
      return [mpiLine "DSA r" r, mpiLine "DSA s" t]
    else .ok [])
  return [.line (ascii "Version: " ++ dec s.version.toNat)] ++ mid ++ [.line (ascii "Hash Left 16 Bits: " ++ hexlify s.left16)] ++ mpis

/-- `Tag3::show_contents` (Tag3.cpp:37-49). -/
def Tag3.acts (t : Tag3) : List Act :=
  [.line (ascii "Version: " ++ dec t.version.toNat), .line (ascii "Symmetric Key Algorithm: " ++ mapped symNames t.sym.toNat ++ ascii " (sym " ++ dec t.sym.toNat ++ ascii ")")] ++
    (match t.s2k with
      | some s => s.acts
      | none => [.line []]) ++
    (match t.esk with
      | some e => [.line (ascii "Encrypted Session Key: " ++ hexlify e)]
      | none => [])

/-- `Tag4::show_contents` (Tag4.cpp:16-23). -/
def Tag4.acts (t : Tag4) : List Act :=
  [.line (ascii "Version: " ++ dec t.version.toNat), .line (ascii "Signature Type: " ++ mapped sigNames t.type.toNat ++ ascii " (sig " ++ dec t.type.toNat ++ ascii ")"),
   .line (hashLine t.hash), .line (pkaLine t.pka), .line (ascii "KeyID: " ++ hexlify t.keyid), .line (ascii "Last: " ++ dec t.last.toNat)]

/-- `Key::show_common` (Key.cpp:111-156). -/
def KeyPkt.acts (time : Nat → Bytes) (k : KeyPkt) : Out (List Act) := do
  let head := [Act.line (ascii "Version: " ++ dec k.version.toNat ++ ascii " - " ++ if k.version < 4 then ascii "Old" else ascii "New"), .line (ascii "Creation Time: " ++ time k.time)]
  if k.version < 4 then do
    let n ← vecAt k.mpi 0
    let e ← vecAt k.mpi 1
    return head ++ [.line (ascii "Expiration Time (Days): " ++ dec k.expire)] ++ (if k.expire = 0 then [.line (ascii " (Never)")] else []) ++
      [.line (pkaLine k.pka), .line (ascii "RSA n: " ++ mpitohex n ++ ascii "(" ++ dec (bitsize n) ++ ascii " bits)"), .line (ascii "RSA e: " ++ mpitohex e)]
  else if k.version = 4 then do
    let head := head ++ [.line (pkaLine k.pka)]
    if isRSA k.pka then do
      let n ← vecAt k.mpi 0
      let e ← vecAt k.mpi 1
      return head ++ [mpiLine "RSA n" n, mpiLine "RSA e" e]
    else if k.pka = 16 then do
      let p ← vecAt k.mpi 0
      let g ← vecAt k.mpi 1
      let y ← vecAt k.mpi 2
      return head ++ [mpiLine "ELGAMAL p" p, mpiLine "ELGAMAL g" g, mpiLine "ELGAMAL y" y]
    else if k.pka = 17 then do
      let p ← vecAt k.mpi 0
      let q ← vecAt k.mpi 1
      let g ← vecAt k.mpi 2
      let y ← vecAt k.mpi 3
      return head ++ [mpiLine "DSA p" p, mpiLine "DSA q" q, mpiLine "DSA g" g, mpiLine "DSA y" y]
    else return head
  else return head

/-- `label: (N) bits: hex` of Tag5.cpp:117-143. -/
def secretLine (label : String) (m : Nat) : Act := .line (ascii label ++ ascii ": (" ++ dec (bitsize m) ++ ascii ") bits: " ++ mpitohex m)

/-- `Tag5::show_private` (Tag5.cpp:59-155). A null `s2k` is followed. -/
def Tag5.privateActs (t : Tag5) : Out (List Act) := do
  let s2k ← (if t.s2kCon > 253 then
      match t.s2k with
      | none => .ub
      | some s => .ok ([Act.line (ascii "String-to-Key Usage Conventions: " ++ dec t.s2kCon.toNat),
          .line (ascii "Symmetric Key Algorithm: " ++ mapped symNames t.sym.toNat ++ ascii " (sym " ++ dec t.sym.toNat ++ ascii ")")] ++ s.acts ++
          (match s with
            | .simple _ => []
            | _ => [.line (ascii "IV: " ++ hexlify t.iv)]))
    else .ok [])
  if t.s2kCon ≠ 0 then do
    let what := if isRSA t.key.pka then ascii "RSA d, p, q, u" else if t.key.pka = 16 then ascii "ELGAMAL x" else if t.key.pka = 17 then ascii "DSA x" else ascii "Unknown"
    return s2k ++ [.line (ascii "Encrypted Data (" ++ dec t.secret.length ++ ascii " octets):"), .down,
      .line (what ++ ascii " + " ++ (if t.s2kCon = 254 then ascii "SHA1 hash" else ascii "2 Octet Checksum") ++ ascii ": " ++ hexlify t.secret), .up]
  else do
    let (l, pos) ← (if isRSA t.key.pka then do
        let (d, pos) ← readMPI t.secret 0
        let (p, pos) ← readMPI t.secret pos
        let (q, pos) ← readMPI t.secret pos
        let (u, pos) ← readMPI t.secret pos
        return ([secretLine "RSA d" d, secretLine "RSA p" p, secretLine "RSA q" q, secretLine "RSA u" u], pos)
      else if t.key.pka = 16 then do
        let (x, pos) ← readMPI t.secret 0
        return ([secretLine "ELGAMAL x" x], pos)
      else if t.key.pka = 17 then do
        let (x, pos) ← readMPI t.secret 0
        return ([secretLine "DSA x" x], pos)
      else .ok ([Act.line (ascii "Unknown")], 0))
    let sum ← substr t.secret pos 2
    return s2k ++ l ++ [.line (ascii "2 Octet Checksum : " ++ hexlify sum)]

/-- `Tag5::show_contents` (Tag5.cpp:157-160). -/
def Tag5.acts (time : Nat → Bytes) (t : Tag5) : Out (List Act) := do
  let a ← t.key.acts time
  let b ← t.privateActs
  return a ++ b

/-- `Tag11::show_contents` (Tag11.cpp:28-36). -/
def Tag11.acts (time : Nat → Bytes) (t : Tag11) : List Act :=
  [.line (ascii "Data_Format: " ++ mapped literalNames t.format.toNat), .line (ascii "Data (" ++ dec (1 + t.filename.length + 4 + t.literal.length) ++ ascii " octets):"), .down,
   .line (ascii "Filename: " ++ t.filename), .line (ascii "Creation Date: " ++ time t.time), .line (ascii "Data: " ++ t.literal), .up]

/-- `Sub::show` (Subpacket.cpp:67-71) of an image (Tag17/Sub1.cpp:19-34, Tag17/Subpacket.cpp:7-9), the `i`th of its packet: the image is written into the working
directory. -/
def Attr.acts {E : Type} (env : ShowEnv E) (i : Nat) (a : Attr) : List Act :=
  let name := ascii "image" ++ dec (env.imageNo i) ++ ascii "." ++ mapped imageNames a.encoding.toNat
  [.line ((if a.critical then ascii "Critical: " else []) ++ ascii "Image Attribute Subpacket (sub 1) (" ++ dec (env.attrSize i) ++ ascii " octets)"), .down] ++
    (if env.opens name then [.file name a.image, .line (ascii "Check working directory for" ++ ascii " '" ++ name ++ ascii "'.")]
      else [.line (ascii "Error writing to" ++ ascii " '" ++ name ++ ascii "'.")]) ++ [.up]

/-- `show_contents` of the packets (Tag9.cpp:15-17, Tag10.cpp:13-15, Tag12.cpp:11-13, Tag13.cpp:11-13, Tag17.cpp:29-33, Tag18.cpp:16-19, Tag19.cpp:11-13, Tag60.cpp:11-13 and
the ones above); `showC` shows the contents of a compressed packet. -/
def Body.acts {E : Type} (env : ShowEnv E) (showE : E → Out (List Act)) (showC : UInt8 → Bytes → Out (List Act)) : Body E → Out (List Act)
  | .pkesk t => t.acts
  | .sig s => s.acts env showE
  | .skesk t => .ok t.acts
  | .onePass t => .ok t.acts
  | .secretKey t => t.acts env.time
  | .publicKey k => k.acts env.time
  | .secretSubkey t => t.acts env.time
  | .compressed c d => showC c d
  | .symEnc d => .ok [.line (ascii "Encrypted Data (" ++ dec d.length ++ ascii " octets): " ++ hexlify d)]
  | .marker p => .ok [.line p]
  | .literal t => .ok (t.acts env.time)
  | .trust t => .ok [.line (ascii "Data (" ++ dec t.length ++ ascii " octets): " ++ t)]
  | .userId u => .ok [.line (ascii "User ID: " ++ u)]
  | .publicSubkey k => k.acts env.time
  | .userAttr l => .ok (l.zipIdx.flatMap fun x => x.1.acts env x.2)
  | .seip v d => .ok [.line (ascii "Version: " ++ dec v.toNat), .line (ascii "Encrypted Data (" ++ dec d.length ++ ascii " octets): " ++ hexlify d)]
  | .mdc h => .ok [.line (ascii "SHA - 1 Hash of previous packet: " ++ h)]
  | .priv _ s => .ok [.line (hexlify s)]

/-- `Tag::show_title` (Packet.cpp:54-61) and `Partial::show_title` (Partial.cpp:8-13). -/
def pktTitle (fmt : Fmt) (tag : Nat) (part : Bool) : Out Bytes :=
  match tagNames.lookup tag with
  | some name => .ok ((if fmt = .new then ascii "New" else ascii "Old") ++ ascii ": " ++ ascii name ++ ascii " (Tag " ++ dec tag ++ ascii ")" ++
      if (tag = 8 ∨ tag = 9 ∨ tag = 11 ∨ tag = 18) ∧ part = true then ascii " (partial)" else [])
  | none => .throw

/-- `Tag::show` (Packet.cpp:107-111). -/
def Pkt.acts {E : Type} (env : ShowEnv E) (showE : E → Out (List Act)) (showC : UInt8 → Bytes → Out (List Act)) (p : Pkt E) : Out (List Act) := do
  let t ← pktTitle p.fmt p.body.tag p.part
  let l ← p.body.acts env showE showC
  return [.line t, .down] ++ l ++ [.up]

/-- `PGP::show` (PGP.cpp:495-499): all packets. -/
def pktsActs {E : Type} (f : Pkt E → Out (List Act)) : List (Pkt E) → Out (List Act)
  | [] => .ok []
  | p :: ps => do
    let l ← f p
    let ls ← pktsActs f ps
    return l ++ ls

/-- `Message::show` (Message.cpp:211-226). -/
def Msg.acts {E : Type} (f : Pkt E → Out (List Act)) (m : Msg E) : Out (List Act) := do
  let l ← pktsActs f m.packets
  match m.comp with
  | none => return l
  | some (fmt, part, _) => do
    let t ← pktTitle fmt 8 part
    return [.line t, .down] ++ l ++ [.up]

/-- `Tag8::show_contents` (Tag8.cpp:29-41): the contents are unpacked, read as a message (C54) and shown; `depth` bounds the nesting. -/
def showCompressed {E : Type} (env : ShowEnv E) (showE : E → Out (List Act)) (z : Zip) (readE : Bytes → Out E) : (depth : Nat) → UInt8 → Bytes → Out (List Act)
  | 0, _, _ => .diverge
  | depth + 1, c, d => do
    let inner ← (if d = [] then .ok [] else do
      let data ← decompress z c d
      let m ← Msg.readRaw z readE (depth + 1) data
      m.acts (Pkt.acts env showE (showCompressed env showE z readE depth)))
    return [.line (ascii "Compression Algorithm: " ++ mapped compNames c.toNat ++ ascii " (compress " ++ dec c.toNat ++ ascii ")"), .line (ascii "Compressed Data:"), .down] ++
      inner ++ [.up]

/-- `show` of an embedded signature with at most `n` levels. -/
def showSig (env : (n : Nat) → ShowEnv (SigAt n)) : (n : Nat) → SigAt n → Out (List Act)
  | 0, e => e.elim
  | n + 1, s => do
    let l ← Tag2.acts (env n) (showSig env n) s
    return [.line (ascii "New: Signature (Tag 2)"), .down] ++ l ++ [.up]

/-- `PGP::show(indents, indent_size)` (PGP.cpp:489-493): the text, and the files. -/
def showText {E : Type} (f : Pkt E → Out (List Act)) (ps : List (Pkt E)) (indents indentSize : Nat) : Out (Bytes × List (Bytes × Bytes)) := do
  let l ← pktsActs f ps
  let h := (Hr.fresh indentSize indents).run l
  return (h.data, h.files)

end OpenPGP
