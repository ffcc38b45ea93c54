import Verif.Model.Setters
import Verif.Model.Valid
import Verif.Spec.Setters

/-!
# C74: objects built with setters

Whatever setters are called, in whatever order and however often, an object afterwards holds, field by field, the value that was set last, or the one it was constructed with, and
that is what it writes. Calls that throw change nothing. Where the code does not do that, it is stated as a failure.
-/
namespace OpenPGP
variable {E : Type}

theorem lastSet_run {C O α : Type} (call : C → O → O) (get : O → α) (value : C → Option α) (h : ∀ c o, get (call c o) = (value c).getD (get o)) (calls : List C) :
    ∀ o, get (runCalls call o calls) = lastSet value (get o) calls := by
  induction calls using List.reverseRecOn with
  | nil => intro o; rfl
  | append_singleton l c ih =>
    intro o
    have h1 : runCalls call o (l ++ [c]) = call c (runCalls call o l) := by simp [runCalls]
    rw [h1, h, ih]
    simp only [lastSet, List.reverse_append, List.reverse_cons, List.reverse_nil, List.nil_append, List.cons_append, List.findSome?_cons]
    cases value c <;> rfl

/-- **Session keys for a public key.** The octets are written in the order of RFC 4880, 5.1. The version is not: it is always 3. -/
theorem C74_session (calls : List Tag1.Call) :
    let keyid := lastSet (fun | .keyid k => some k | _ => none) [] calls
    let pka := lastSet (fun | .pka p => some p | _ => none) 0 calls
    let mpi := lastSet (fun | .mpi m => some m | _ => none) [] calls
    runCalls Tag1.call .fresh calls = ⟨lastSet (fun | .version v => some v | _ => none) 3 calls, keyid, pka, mpi⟩ ∧
      (runCalls Tag1.call .fresh calls).raw = [3] ++ keyid ++ [pka] ++ writeMPIs mpi := by
  have h1 := lastSet_run Tag1.call Tag1.version (fun | .version v => some v | _ => none) (by intro c o; cases c <;> rfl) calls .fresh
  have h2 := lastSet_run Tag1.call Tag1.keyid (fun | .keyid k => some k | _ => none) (by intro c o; cases c <;> rfl) calls .fresh
  have h3 := lastSet_run Tag1.call Tag1.pka (fun | .pka p => some p | _ => none) (by intro c o; cases c <;> rfl) calls .fresh
  have h4 := lastSet_run Tag1.call Tag1.mpi (fun | .mpi m => some m | _ => none) (by intro c o; cases c <;> rfl) calls .fresh
  exact ⟨by rw [Tag1.mk.injEq]; exact ⟨h1, h2, h3, h4⟩, by rw [Tag1.raw, h2, h3, h4]; rfl⟩

/-- **One-pass signatures** (RFC 4880, 5.4). A key ID that does not have 8 octets is refused and changes nothing. The version written is always 3. -/
theorem C74_one_pass (calls : List Tag4.Call) :
    let type := lastSet (fun | .type t => some t | _ => none) 0 calls
    let hash := lastSet (fun | .hash h => some h | _ => none) 0 calls
    let pka := lastSet (fun | .pka p => some p | _ => none) 0 calls
    let keyid := lastSet (fun | .keyid k => if k.length = 8 then some k else none | _ => none) [] calls
    let last := lastSet (fun | .last n => some n | _ => none) 1 calls
    runCalls Tag4.call .fresh calls = ⟨lastSet (fun | .version v => some v | _ => none) 3 calls, type, hash, pka, keyid, last⟩ ∧
      (runCalls Tag4.call .fresh calls).raw = [3, type, hash, pka] ++ keyid ++ [last] := by
  have hk : ∀ k o, (Tag4.call (.keyid k) o) = if k.length = 8 then { o with keyid := k } else o := by
    intro k o
    by_cases h : k.length = 8 <;> simp [Tag4.call, Tag4.checkKeyid, h]
  have h1 := lastSet_run Tag4.call Tag4.version (fun | .version v => some v | _ => none) (by intro c o; cases c <;> first | rfl | (rw [hk]; split <;> rfl)) calls .fresh
  have h2 := lastSet_run Tag4.call Tag4.type (fun | .type v => some v | _ => none) (by intro c o; cases c <;> first | rfl | (rw [hk]; split <;> rfl)) calls .fresh
  have h3 := lastSet_run Tag4.call Tag4.hash (fun | .hash v => some v | _ => none) (by intro c o; cases c <;> first | rfl | (rw [hk]; split <;> rfl)) calls .fresh
  have h4 := lastSet_run Tag4.call Tag4.pka (fun | .pka v => some v | _ => none) (by intro c o; cases c <;> first | rfl | (rw [hk]; split <;> rfl)) calls .fresh
  have h5 := lastSet_run Tag4.call Tag4.keyid (fun | .keyid k => if k.length = 8 then some k else none | _ => none)
    (by intro c o; cases c <;> first | rfl | (rw [hk]; dsimp only; split <;> rfl)) calls .fresh
  have h6 := lastSet_run Tag4.call Tag4.last (fun | .last v => some v | _ => none) (by intro c o; cases c <;> first | rfl | (rw [hk]; split <;> rfl)) calls .fresh
  exact ⟨by rw [Tag4.mk.injEq]; exact ⟨h1, h2, h3, h4, h5, h6⟩, by rw [Tag4.raw, h2, h3, h4, h5, h6]; rfl⟩

/-- **Session keys for a passphrase** (RFC 4880, 5.3). Only specifiers with a salt are taken. -/
theorem C74_passphrase (calls : List Tag3.Call) :
    let sym := lastSet (fun | .sym s => some s | _ => none) 0 calls
    let s2k := lastSet (fun | .s2k (some (.salted h s)) => some (some (.salted h s)) | .s2k (some (.iterated h s c)) => some (some (.iterated h s c)) | _ => none) none calls
    let esk := lastSet (fun | .esk e => some (some e) | .eskPtr (some e) => some (some e) | _ => none) none calls
    let version := lastSet (fun | .version v => some v | _ => none) 4 calls
    runCalls Tag3.call .fresh calls = ⟨version, sym, s2k, esk⟩ ∧ (runCalls Tag3.call .fresh calls).raw = [version, sym] ++ (s2k.map S2K.raw).getD [] ++ esk.getD [] := by
  have h1 := lastSet_run Tag3.call Tag3.version (fun | .version v => some v | _ => none)
    (by intro c o; rcases c with _ | _ | (_ | s) | _ | (_ | _) <;> first | rfl | (cases s <;> rfl)) calls .fresh
  have h2 := lastSet_run Tag3.call Tag3.sym (fun | .sym v => some v | _ => none)
    (by intro c o; rcases c with _ | _ | (_ | s) | _ | (_ | _) <;> first | rfl | (cases s <;> rfl)) calls .fresh
  have h3 := lastSet_run Tag3.call Tag3.s2k (fun | .s2k (some (.salted h s)) => some (some (.salted h s)) | .s2k (some (.iterated h s c)) => some (some (.iterated h s c)) | _ => none)
    (by intro c o; rcases c with _ | _ | (_ | s) | _ | (_ | _) <;> first | rfl | (cases s <;> rfl)) calls .fresh
  have h4 := lastSet_run Tag3.call Tag3.esk (fun | .esk e => some (some e) | .eskPtr (some e) => some (some e) | _ => none)
    (by intro c o; rcases c with _ | _ | (_ | s) | _ | (_ | _) <;> first | rfl | (cases s <;> rfl)) calls .fresh
  refine ⟨by rw [Tag3.mk.injEq]; exact ⟨h1, h2, h3, h4⟩, ?_⟩
  have hr : ∀ t : Tag3, t.raw = [t.version, t.sym] ++ (t.s2k.map S2K.raw).getD [] ++ t.esk.getD [] := by
    rintro ⟨v, y, _ | s, _ | e⟩ <;> simp [Tag3.raw]
  rw [hr, h1, h2, h3, h4]
  rfl

theorem key_run (calls : List KeyPkt.Call) (k : KeyPkt) :
    runCalls KeyPkt.call k calls = ⟨lastSet (fun | .version v => some v | _ => none) k.version calls, lastSet (fun | .time t => some t | _ => none) k.time calls,
      lastSet (fun | .pka p => some p | _ => none) k.pka calls, lastSet (fun | .mpi m => some m | _ => none) k.mpi calls, lastSet (fun | .expire t => some t | _ => none) k.expire calls⟩ := by
  have h1 := lastSet_run KeyPkt.call KeyPkt.version (fun | .version v => some v | _ => none) (by intro c o; cases c <;> rfl) calls k
  have h2 := lastSet_run KeyPkt.call KeyPkt.time (fun | .time v => some v | _ => none) (by intro c o; cases c <;> rfl) calls k
  have h3 := lastSet_run KeyPkt.call KeyPkt.pka (fun | .pka v => some v | _ => none) (by intro c o; cases c <;> rfl) calls k
  have h4 := lastSet_run KeyPkt.call KeyPkt.mpi (fun | .mpi v => some v | _ => none) (by intro c o; cases c <;> rfl) calls k
  have h5 := lastSet_run KeyPkt.call KeyPkt.expire (fun | .expire v => some v | _ => none) (by intro c o; cases c <;> rfl) calls k
  rw [KeyPkt.mk.injEq]
  exact ⟨h1, h2, h3, h4, h5⟩

/-- **Public keys** (RFC 4880, 5.5.2). The period of validity is written, and can be asked for, below version 4 only. -/
theorem C74_key (calls : List KeyPkt.Call) :
    let version := lastSet (fun | .version v => some v | _ => none) 0 calls
    let time := lastSet (fun | .time t => some t | _ => none) 0 calls
    let pka := lastSet (fun | .pka p => some p | _ => none) 0 calls
    let mpi := lastSet (fun | .mpi m => some m | _ => none) [] calls
    let expire := lastSet (fun | .expire t => some t | _ => none) 0 calls
    let k := runCalls KeyPkt.call .fresh calls
    k = ⟨version, time, pka, mpi, expire⟩ ∧ k.rawCommon = [version] ++ be 4 time ++ (if version < 4 then be 2 expire else []) ++ [pka] ++ writeMPIs mpi ∧
      k.getExpire = if version < 4 then .ok expire else .throw := by
  have h := key_run calls .fresh
  refine ⟨h, ?_, ?_⟩
  · rw [h]; rfl
  · rw [h]; rfl

/-- **Secret keys**: the fields of the public key and those of the protection (RFC 4880, 5.5.3). -/
theorem C74_secret (calls : List Tag5.Call) :
    let con := lastSet (fun | .s2kCon c => some c | _ => none) 0 calls
    let sym := lastSet (fun | .sym s => some s | _ => none) 0 calls
    let s2k := lastSet (fun | .s2k s => some (some s) | _ => none) none calls
    let iv := lastSet (fun | .iv i => some i | _ => none) [] calls
    let secret := lastSet (fun | .secret s => some s | _ => none) [] calls
    let key := runCalls KeyPkt.call .fresh (calls.filterMap fun | .key c => some c | _ => none)
    runCalls Tag5.call .fresh calls = ⟨key, con, sym, s2k, iv, secret⟩ ∧
      (con = 0 → (runCalls Tag5.call .fresh calls).raw = .ok (key.rawCommon ++ [0] ++ secret)) ∧
      (∀ s, (con = 254 ∨ con = 255) → s2k = some s → (runCalls Tag5.call .fresh calls).raw = .ok (key.rawCommon ++ [con, sym] ++ s.raw ++ iv ++ secret)) := by
  have h1 := lastSet_run Tag5.call Tag5.s2kCon (fun | .s2kCon v => some v | _ => none) (by intro c o; cases c <;> rfl) calls .fresh
  have h2 := lastSet_run Tag5.call Tag5.sym (fun | .sym v => some v | _ => none) (by intro c o; cases c <;> rfl) calls .fresh
  have h3 := lastSet_run Tag5.call Tag5.s2k (fun | .s2k v => some (some v) | _ => none) (by intro c o; cases c <;> rfl) calls .fresh
  have h4 := lastSet_run Tag5.call Tag5.iv (fun | .iv v => some v | _ => none) (by intro c o; cases c <;> rfl) calls .fresh
  have h5 := lastSet_run Tag5.call Tag5.secret (fun | .secret v => some v | _ => none) (by intro c o; cases c <;> rfl) calls .fresh
  have h6 : ∀ (calls : List Tag5.Call) (t : Tag5), (runCalls Tag5.call t calls).key = runCalls KeyPkt.call t.key (calls.filterMap fun | .key c => some c | _ => none) := by
    intro calls
    induction calls with
    | nil => intro t; rfl
    | cons c calls ih =>
      intro t
      have : runCalls Tag5.call t (c :: calls) = runCalls Tag5.call (Tag5.call c t) calls := rfl
      rw [this, ih]
      cases c <;> rfl
  have r0 : ∀ t : Tag5, t.s2kCon = 0 → t.raw = .ok (t.key.rawCommon ++ [0] ++ t.secret) := by
    rintro ⟨k, c, y, s, i, x⟩ hc
    have hc : c = 0 := hc
    subst hc
    simp [Tag5.raw, Tag5.protectionOctets, Tag5.hasS2K]
  have r1 : ∀ (t : Tag5) (s : S2K), (t.s2kCon = 254 ∨ t.s2kCon = 255) → t.s2k = some s → t.raw = .ok (t.key.rawCommon ++ [t.s2kCon, t.sym] ++ s.raw ++ t.iv ++ t.secret) := by
    rintro ⟨k, c, y, s', i, x⟩ s hc hs
    have hs : s' = some s := hs
    have hc : c = 254 ∨ c = 255 := hc
    subst hs
    rcases hc with rfl | rfl <;> simp [Tag5.raw, Tag5.protectionOctets, Tag5.hasS2K]
  refine ⟨by rw [Tag5.mk.injEq]; exact ⟨h6 calls .fresh, h1, h2, h3, h4, h5⟩, ?_, ?_⟩
  · intro hc
    rw [r0 _ (h1.trans hc), h5, h6]
    rfl
  · intro s hc hs
    have hc' : (runCalls Tag5.call .fresh calls).s2kCon = 254 ∨ (runCalls Tag5.call .fresh calls).s2kCon = 255 := by
      rcases hc with h | h
      · exact Or.inl (h1.trans h)
      · exact Or.inr (h1.trans h)
    rw [r1 _ s hc' (h3.trans hs), h1, h2, h4, h5, h6]
    rfl

/-- **Literal data** (RFC 4880, 5.9). -/
theorem C74_literal (calls : List Tag11.Call) :
    let format := lastSet (fun | .format f => some f | _ => none) 0 calls
    let filename := lastSet (fun | .filename f => some f | _ => none) [] calls
    let time := lastSet (fun | .time t => some t | _ => none) 0 calls
    let literal := lastSet (fun | .literal l => some l | _ => none) [] calls
    runCalls Tag11.call .fresh calls = ⟨format, filename, time, literal⟩ ∧
      (runCalls Tag11.call .fresh calls).raw = [format, UInt8.ofNat filename.length] ++ filename ++ be 4 time ++ literal := by
  have h1 := lastSet_run Tag11.call Tag11.format (fun | .format v => some v | _ => none) (by intro c o; cases c <;> rfl) calls .fresh
  have h2 := lastSet_run Tag11.call Tag11.filename (fun | .filename v => some v | _ => none) (by intro c o; cases c <;> rfl) calls .fresh
  have h3 := lastSet_run Tag11.call Tag11.time (fun | .time v => some v | _ => none) (by intro c o; cases c <;> rfl) calls .fresh
  have h4 := lastSet_run Tag11.call Tag11.literal (fun | .literal v => some v | _ => none) (by intro c o; cases c <;> rfl) calls .fresh
  exact ⟨by rw [Tag11.mk.injEq]; exact ⟨h1, h2, h3, h4⟩, by rw [Tag11.raw, h1, h2, h3, h4]; rfl⟩

/-- **Signatures**: the fields that only their own setters change, for every run of calls. -/
theorem C74_signature (calls : List (Tag2.Call E)) (s : Tag2 E) :
    let t := runCalls Tag2.call s calls
    t.version = lastSet (fun | .version v => some v | _ => none) s.version calls ∧ t.type = lastSet (fun | .type v => some v | _ => none) s.type calls ∧
      t.pka = lastSet (fun | .pka v => some v | _ => none) s.pka calls ∧ t.hash = lastSet (fun | .hash v => some v | _ => none) s.hash calls ∧
      t.left16 = lastSet (fun | .left16 v => some v | _ => none) s.left16 calls ∧ t.mpi = lastSet (fun | .mpi v => some v | _ => none) s.mpi calls := by
  have hkeep : ∀ (c : Tag2.Call E) (o : Tag2 E), (∃ t, c = .time t) ∨ (∃ k, c = .keyid k) →
      (Tag2.call c o).version = o.version ∧ (Tag2.call c o).type = o.type ∧ (Tag2.call c o).pka = o.pka ∧ (Tag2.call c o).hash = o.hash ∧ (Tag2.call c o).left16 = o.left16 ∧
        (Tag2.call c o).mpi = o.mpi := by
    rintro c o (⟨t, rfl⟩ | ⟨k, rfl⟩)
    · simp only [Tag2.call, Tag2.setTime]
      split
      · exact ⟨rfl, rfl, rfl, rfl, rfl, rfl⟩
      · split <;> exact ⟨rfl, rfl, rfl, rfl, rfl, rfl⟩
    · simp only [Tag2.call]
      cases h : o.setKeyid k with
      | ok o' =>
        revert h
        simp only [Tag2.setKeyid]
        split
        · exact nofun
        · split
          · rintro ⟨⟩; exact ⟨rfl, rfl, rfl, rfl, rfl, rfl⟩
          · split <;> (rintro ⟨⟩; exact ⟨rfl, rfl, rfl, rfl, rfl, rfl⟩)
      | _ => exact ⟨rfl, rfl, rfl, rfl, rfl, rfl⟩
  refine ⟨?_, ?_, ?_, ?_, ?_, ?_⟩
  · exact lastSet_run Tag2.call Tag2.version _ (by intro c o; cases c <;> first | rfl | exact (hkeep _ o (Or.inl ⟨_, rfl⟩)).1 | exact (hkeep _ o (Or.inr ⟨_, rfl⟩)).1) calls s
  · exact lastSet_run Tag2.call Tag2.type _ (by intro c o; cases c <;> first | rfl | exact (hkeep _ o (Or.inl ⟨_, rfl⟩)).2.1 | exact (hkeep _ o (Or.inr ⟨_, rfl⟩)).2.1) calls s
  · exact lastSet_run Tag2.call Tag2.pka _ (by intro c o; cases c <;> first | rfl | exact (hkeep _ o (Or.inl ⟨_, rfl⟩)).2.2.1 | exact (hkeep _ o (Or.inr ⟨_, rfl⟩)).2.2.1) calls s
  · exact lastSet_run Tag2.call Tag2.hash _ (by intro c o; cases c <;> first | rfl | exact (hkeep _ o (Or.inl ⟨_, rfl⟩)).2.2.2.1 | exact (hkeep _ o (Or.inr ⟨_, rfl⟩)).2.2.2.1) calls s
  · exact lastSet_run Tag2.call Tag2.left16 _ (by intro c o; cases c <;> first | rfl | exact (hkeep _ o (Or.inl ⟨_, rfl⟩)).2.2.2.2.1 | exact (hkeep _ o (Or.inr ⟨_, rfl⟩)).2.2.2.2.1) calls s
  · exact lastSet_run Tag2.call Tag2.mpi _ (by intro c o; cases c <;> first | rfl | exact (hkeep _ o (Or.inl ⟨_, rfl⟩)).2.2.2.2.2 | exact (hkeep _ o (Or.inr ⟨_, rfl⟩)).2.2.2.2.2) calls s

/-- Subpackets that are set stay as they are, unless a time or a key ID is set afterwards (C70 says what these do). -/
theorem C74_subpackets (calls : List (Tag2.Call E)) (hc : ∀ c ∈ calls, (∀ t, c ≠ .time t) ∧ ∀ k, c ≠ .keyid k) (s : Tag2 E) :
    (runCalls Tag2.call s calls).hashed = lastSet (fun | .hashed v => some v | _ => none) s.hashed calls ∧
      (runCalls Tag2.call s calls).unhashed = lastSet (fun | .unhashed v => some v | _ => none) s.unhashed calls := by
  -- a run without those calls is a run of calls that skip them
  let skip : Tag2.Call E → Tag2 E → Tag2 E := fun c o => match c with
    | .time _ => o
    | .keyid _ => o
    | c => Tag2.call c o
  have he : ∀ (calls : List (Tag2.Call E)), (∀ c ∈ calls, (∀ t, c ≠ .time t) ∧ ∀ k, c ≠ .keyid k) → ∀ s, runCalls Tag2.call s calls = runCalls skip s calls := by
    intro calls
    induction calls with
    | nil => intro _ s; rfl
    | cons c calls ih =>
      intro h s
      have h1 : Tag2.call c s = skip c s := by
        have := h c (by simp)
        cases c <;> first | rfl | exact absurd rfl (this.1 _) | exact absurd rfl (this.2 _)
      show runCalls Tag2.call (Tag2.call c s) calls = runCalls skip (skip c s) calls
      rw [h1]
      exact ih (fun c hc => h c (by simp [hc])) _
  rw [he calls hc]
  exact ⟨lastSet_run skip Tag2.hashed _ (by intro c o; cases c <;> rfl) calls s, lastSet_run skip Tag2.unhashed _ (by intro c o; cases c <;> rfl) calls s⟩

/-! ## Subpackets -/

/-- A subpacket keeps its kind, whatever is called. -/
theorem C74_subpacket_kind (calls : List (SubBody.Call E)) (b : SubBody E) : (runCalls SubBody.call b calls).type = b.type := by
  induction calls generalizing b with
  | nil => rfl
  | cons c calls ih =>
    show (runCalls SubBody.call (SubBody.call c b) calls).type = b.type
    rw [ih]
    cases b <;> cases c <;> rfl

/-- The octets of each subpacket are those of the values set last (RFC 4880, 5.2.3.4 to 5.2.3.26), in each class whatever is called, from a new object on. -/
theorem C74_subpacket (rawE : E → Bytes) (calls : List (SubBody.Call E)) :
    let number := lastSet (fun | .number n => some n | _ => none) 0 calls
    let flag := lastSet (fun | .flag b => some b | _ => none) false calls
    let text := lastSet (fun | .text s => some s | _ => none) [] calls
    let octets := fun type => ((SubBody.default type).map fun b => (runCalls SubBody.call b calls).raw rawE)
    octets 2 = some (be 4 number) ∧ octets 3 = some (be 4 number) ∧ octets 9 = some (be 4 number) ∧
      (∀ t ∈ [4, 7, 25], octets t = some [if flag then 1 else 0]) ∧
      octets 5 = some [lastSet (fun | .level l => some l | _ => none) 0 calls, lastSet (fun | .amount a => some a | _ => none) 0 calls] ∧
      octets 6 = some (lastSet (fun | .regex r => some (SubBody.stripNul r) | _ => none) [] calls ++ [0]) ∧
      (∀ t ∈ [10, 11, 16, 21, 22, 23, 24, 26, 27, 28, 30], octets t = some text) ∧
      octets 12 = some (lastSet (fun | .cls c => some c | _ => none) 0 calls :: lastSet (fun | .pka p => some p | _ => none) 0 calls ::
        lastSet (fun | .fingerprint f => some f | _ => none) [] calls) ∧
      (let m := lastSet (fun | .name m => some m | _ => none) [] calls
       let n := lastSet (fun | .value n => some n | _ => none) [] calls
       octets 20 = some (lastSet (fun | .flags f => some f | _ => none) [] calls ++ be 2 m.length ++ be 2 n.length ++ m ++ n)) ∧
      octets 29 = some (lastSet (fun | .code c => some c | _ => none) 0 calls :: lastSet (fun | .why w => some w | _ => none) [] calls) ∧
      octets 31 = some (lastSet (fun | .pka p => some p | _ => none) 0 calls :: lastSet (fun | .hashAlg h => some h | _ => none) 0 calls ::
        lastSet (fun | .hash h => some h | _ => none) [] calls) ∧
      octets 32 = some (match lastSet (fun | .sig e => some (some e) | _ => none) none calls with | some e => rawE e | none => []) := by
  have one : ∀ {α : Type} (mk : α → SubBody E) (value : SubBody.Call E → Option α) (_ : ∀ c a, SubBody.call c (mk a) = mk ((value c).getD a)) (a : α),
      runCalls SubBody.call (mk a) calls = mk (lastSet value a calls) := by
    intro α mk value h a
    have key : ∀ (l : List (SubBody.Call E)) (a : α), runCalls SubBody.call (mk a) l = mk (runCalls (fun c a => (value c).getD a) a l) := by
      intro l
      induction l with
      | nil => intro a; rfl
      | cons c l ih =>
        intro a
        show runCalls SubBody.call (SubBody.call c (mk a)) l = mk (runCalls _ ((value c).getD a) l)
        rw [h, ih]
    rw [key, lastSet_run (fun c a => (value c).getD a) (fun a => a) value (fun _ _ => rfl)]
  have two : ∀ {α β : Type} (mk : α → β → SubBody E) (va : SubBody.Call E → Option α) (vb : SubBody.Call E → Option β)
      (_ : ∀ c a b, SubBody.call c (mk a b) = mk ((va c).getD a) ((vb c).getD b)) (a : α) (b : β),
      runCalls SubBody.call (mk a b) calls = mk (lastSet va a calls) (lastSet vb b calls) := by
    intro α β mk va vb h a b
    have key : ∀ (l : List (SubBody.Call E)) (a : α) (b : β), runCalls SubBody.call (mk a b) l =
        mk (runCalls (fun c a => (va c).getD a) a l) (runCalls (fun c b => (vb c).getD b) b l) := by
      intro l
      induction l with
      | nil => intro a b; rfl
      | cons c l ih =>
        intro a b
        show runCalls SubBody.call (SubBody.call c (mk a b)) l = mk (runCalls _ ((va c).getD a) l) (runCalls _ ((vb c).getD b) l)
        rw [h, ih]
    rw [key, lastSet_run (fun c a => (va c).getD a) (fun a => a) va (fun _ _ => rfl), lastSet_run (fun c a => (vb c).getD a) (fun a => a) vb (fun _ _ => rfl)]
  have three : ∀ {α β γ : Type} (mk : α → β → γ → SubBody E) (va : SubBody.Call E → Option α) (vb : SubBody.Call E → Option β) (vc : SubBody.Call E → Option γ)
      (_ : ∀ c x y z, SubBody.call c (mk x y z) = mk ((va c).getD x) ((vb c).getD y) ((vc c).getD z)) (x : α) (y : β) (z : γ),
      runCalls SubBody.call (mk x y z) calls = mk (lastSet va x calls) (lastSet vb y calls) (lastSet vc z calls) := by
    intro α β γ mk va vb vc h x y z
    have key : ∀ (l : List (SubBody.Call E)) (x : α) (y : β) (z : γ), runCalls SubBody.call (mk x y z) l =
        mk (runCalls (fun c a => (va c).getD a) x l) (runCalls (fun c b => (vb c).getD b) y l) (runCalls (fun c b => (vc c).getD b) z l) := by
      intro l
      induction l with
      | nil => intro x y z; rfl
      | cons c l ih =>
        intro x y z
        show runCalls SubBody.call (SubBody.call c (mk x y z)) l = mk (runCalls _ ((va c).getD x) l) (runCalls _ ((vb c).getD y) l) (runCalls _ ((vc c).getD z) l)
        rw [h, ih]
    rw [key, lastSet_run (fun c a => (va c).getD a) (fun a => a) va (fun _ _ => rfl), lastSet_run (fun c a => (vb c).getD a) (fun a => a) vb (fun _ _ => rfl),
      lastSet_run (fun c a => (vc c).getD a) (fun a => a) vc (fun _ _ => rfl)]
  have num : ∀ mk : Nat → SubBody E, mk ∈ [SubBody.sigTime, .sigExpire, .keyExpire] →
      runCalls SubBody.call (mk 0) calls = mk (lastSet (fun | .number n => some n | _ => none) 0 calls) := by
    intro mk hmk
    simp only [List.mem_cons, List.not_mem_nil, or_false] at hmk
    rcases hmk with rfl | rfl | rfl <;> exact one _ _ (by intro c a; cases c <;> rfl) 0
  have flg : ∀ mk : Bool → SubBody E, mk ∈ [SubBody.exportable, .revocable, .primary] →
      runCalls SubBody.call (mk false) calls = mk (lastSet (fun | .flag n => some n | _ => none) false calls) := by
    intro mk hmk
    simp only [List.mem_cons, List.not_mem_nil, or_false] at hmk
    rcases hmk with rfl | rfl | rfl <;> exact one _ _ (by intro c a; cases c <;> rfl) false
  have txt : ∀ mk : Bytes → SubBody E, mk ∈ [SubBody.placeholder, .prefSym, .issuer, .prefHash, .prefComp, .keyServerPrefs, .prefKeyServer, .policy, .keyFlags, .signer, .features] →
      runCalls SubBody.call (mk []) calls = mk (lastSet (fun | .text n => some n | _ => none) [] calls) := by
    intro mk hmk
    simp only [List.mem_cons, List.not_mem_nil, or_false] at hmk
    rcases hmk with rfl | rfl | rfl | rfl | rfl | rfl | rfl | rfl | rfl | rfl | rfl <;> exact one _ _ (by intro c a; cases c <;> rfl) []
  refine ⟨?_, ?_, ?_, ?_, ?_, ?_, ?_, ?_, ?_, ?_, ?_, ?_⟩
  · simp only [SubBody.default, Option.map_some, num .sigTime (by simp)]; rfl
  · simp only [SubBody.default, Option.map_some, num .sigExpire (by simp)]; rfl
  · simp only [SubBody.default, Option.map_some, num .keyExpire (by simp)]; rfl
  · intro t ht
    simp only [List.mem_cons, List.not_mem_nil, or_false] at ht
    rcases ht with rfl | rfl | rfl
    · simp only [SubBody.default, Option.map_some, flg .exportable (by simp)]; generalize lastSet _ false calls = x; cases x <;> rfl
    · simp only [SubBody.default, Option.map_some, flg .revocable (by simp)]; generalize lastSet _ false calls = x; cases x <;> rfl
    · simp only [SubBody.default, Option.map_some, flg .primary (by simp)]; generalize lastSet _ false calls = x; cases x <;> rfl
  · simp only [SubBody.default, Option.map_some]
    rw [two SubBody.trust (fun | .level l => some l | _ => none) (fun | .amount a => some a | _ => none) (by intro c a b; cases c <;> rfl)]; rfl
  · simp only [SubBody.default, Option.map_some]
    rw [one SubBody.regex (fun | .regex r => some (SubBody.stripNul r) | _ => none) (by intro c a; cases c <;> rfl)]; rfl
  · intro t ht
    simp only [List.mem_cons, List.not_mem_nil, or_false] at ht
    rcases ht with rfl | rfl | rfl | rfl | rfl | rfl | rfl | rfl | rfl | rfl | rfl
    · simp only [SubBody.default, Option.map_some, txt .placeholder (by simp)]; rfl
    · simp only [SubBody.default, Option.map_some, txt .prefSym (by simp)]; rfl
    · simp only [SubBody.default, Option.map_some, txt .issuer (by simp)]; rfl
    · simp only [SubBody.default, Option.map_some, txt .prefHash (by simp)]; rfl
    · simp only [SubBody.default, Option.map_some, txt .prefComp (by simp)]; rfl
    · simp only [SubBody.default, Option.map_some, txt .keyServerPrefs (by simp)]; rfl
    · simp only [SubBody.default, Option.map_some, txt .prefKeyServer (by simp)]; rfl
    · simp only [SubBody.default, Option.map_some, txt .policy (by simp)]; rfl
    · simp only [SubBody.default, Option.map_some, txt .keyFlags (by simp)]; rfl
    · simp only [SubBody.default, Option.map_some, txt .signer (by simp)]; rfl
    · simp only [SubBody.default, Option.map_some, txt .features (by simp)]; rfl
  · simp only [SubBody.default, Option.map_some]
    rw [three SubBody.revKey (fun | .cls c => some c | _ => none) (fun | .pka p => some p | _ => none) (fun | .fingerprint f => some f | _ => none) (by intro c x y z; cases c <;> rfl)]; rfl
  · simp only [SubBody.default, Option.map_some]
    rw [three SubBody.notation (fun | .flags f => some f | _ => none) (fun | .name m => some m | _ => none) (fun | .value n => some n | _ => none) (by intro c x y z; cases c <;> rfl)]; rfl
  · simp only [SubBody.default, Option.map_some]
    rw [two SubBody.reason (fun | .code l => some l | _ => none) (fun | .why a => some a | _ => none) (by intro c a b; cases c <;> rfl)]; rfl
  · simp only [SubBody.default, Option.map_some]
    rw [three SubBody.target (fun | .pka f => some f | _ => none) (fun | .hashAlg m => some m | _ => none) (fun | .hash n => some n | _ => none) (by intro c x y z; cases c <;> rfl)]; rfl
  · simp only [SubBody.default, Option.map_some]
    rw [one SubBody.embedded (fun | .sig e => some (some e) | _ => none) (by intro c a; cases c <;> rfl)]
    generalize lastSet _ _ calls = x
    cases x <;> rfl

/-! ## Images, messages, objects -/

/-- **Images.** They are written with version and encoding 1, whatever is set. -/
theorem C74_image (calls : List Attr.Call) :
    let critical := lastSet (fun | .critical c => some c | _ => none) false calls
    let image := lastSet (fun | .image i => some i | _ => none) [] calls
    runCalls Attr.call .fresh calls = ⟨critical, lastSet (fun | .version v => some v | _ => none) 0 calls, lastSet (fun | .encoding v => some v | _ => none) 0 calls, image⟩ ∧
      (runCalls Attr.call .fresh calls).raw = [16, 0, 1, 1] ++ List.replicate 12 0 ++ image := by
  have h1 := lastSet_run Attr.call Attr.critical (fun | .critical v => some v | _ => none) (by intro c o; cases c <;> rfl) calls .fresh
  have h2 := lastSet_run Attr.call Attr.version (fun | .version v => some v | _ => none) (by intro c o; cases c <;> rfl) calls .fresh
  have h3 := lastSet_run Attr.call Attr.encoding (fun | .encoding v => some v | _ => none) (by intro c o; cases c <;> rfl) calls .fresh
  have h4 := lastSet_run Attr.call Attr.image (fun | .image v => some v | _ => none) (by intro c o; cases c <;> rfl) calls .fresh
  exact ⟨by rw [Attr.mk.injEq]; exact ⟨h1, h2, h3, h4⟩, by rw [Attr.raw, h4]; rfl⟩

/-- **Objects**: armor, type, headers and packets. -/
theorem C74_object {P : Type} (calls : List (PgpCall P)) (o : PgpObj P) :
    runCalls PgpObj.call o calls = ⟨lastSet (fun | .armored a => some a | _ => none) o.armored calls, lastSet (fun | .type t => some t | _ => none) o.type calls,
      lastSet (fun | .keys k => some k | _ => none) o.keys calls, lastSet (fun | .packets p => some p | _ => none) o.packets calls⟩ := by
  have h1 := lastSet_run PgpObj.call PgpObj.armored (fun | .armored v => some v | _ => none) (by intro c o; cases c <;> rfl) calls o
  have h2 := lastSet_run PgpObj.call PgpObj.type (fun | .type v => some v | _ => none) (by intro c o; cases c <;> rfl) calls o
  have h3 := lastSet_run PgpObj.call PgpObj.keys (fun | .keys v => some v | _ => none) (by intro c o; cases c <;> rfl) calls o
  have h4 := lastSet_run PgpObj.call PgpObj.packets (fun | .packets v => some v | _ => none) (by intro c o; cases c <;> rfl) calls o
  rw [PgpObj.mk.injEq]
  exact ⟨h1, h2, h3, h4⟩

/-- **Messages.** Any number can be set as the compression algorithm and is the one reported; nothing but that changes. -/
theorem C74_compression (z : Zip) (m : Msg E) (c : UInt8) :
    (m.setComp z c).1 = .ok () ∧ (m.setComp z c).2.getComp = c ∧ (m.setComp z c).2.packets = m.packets := by
  unfold Msg.setComp
  split
  · rename_i h; exact ⟨rfl, h.symm, rfl⟩
  · simp [Tag8.setComp, Tag8.getData, Tag8.setData, decompress, compress, Msg.getComp]

/-- With a number that is no algorithm the message can only be emptied, not written. -/
theorem C74_compression_throws (z : Zip) (rawE : E → Bytes) (m : Msg E) (c : UInt8) (hc : 3 < c) (out : Bytes) (ho : writeRaw (Pkt.write rawE) m.packets = .ok out) (hne : out ≠ []) :
    ((m.setComp z c).2).raw z rawE = .throw := by
  have h0 : c ≠ 0 := by rintro rfl; exact absurd hc (by decide)
  have h1 : c ≠ 1 := by rintro rfl; exact absurd hc (by decide)
  have h2 : c ≠ 2 := by rintro rfl; exact absurd hc (by decide)
  have h3 : c ≠ 3 := by rintro rfl; exact absurd hc (by decide)
  have he : (m.setComp z c).2 = { m with comp := some (.new, false, c) } := by
    simp [Msg.setComp, h0, Tag8.setComp, Tag8.getData, Tag8.setData, decompress, compress]
  rw [he, Msg.raw, ho, Out.ok_bind]
  simp [compress, h0, h1, h2, h3, hne]

/-! ## Failures -/

/-- **Failure: an encrypted session key cannot be taken away.** Once set, the packet has one after every run of calls, also those with null pointers. -/
theorem C74_session_key_stays_fails (t : Tag3) (h : t.esk ≠ none) (calls : List Tag3.Call) : (runCalls Tag3.call t calls).esk ≠ none := by
  induction calls generalizing t with
  | nil => exact h
  | cons c calls ih =>
    refine ih _ ?_
    rcases c with v | s | (_ | s) | e | (_ | e)
    · exact h
    · exact h
    · exact h
    · cases s <;> exact h
    · exact Option.some_ne_none _
    · exact h
    · exact Option.some_ne_none _

/-- **Failure: nor can the specifier of a secret key.** A null pointer is followed, and no run of calls removes one. -/
theorem C74_protection_stays_ub (t : Tag5) : t.setS2K none = .ub ∧ ∀ calls, t.s2k ≠ none → (runCalls Tag5.call t calls).s2k ≠ none := by
  refine ⟨rfl, fun calls => ?_⟩
  induction calls generalizing t with
  | nil => exact id
  | cons c calls ih =>
    intro h
    refine ih _ ?_
    cases c <;> first | exact h | exact Option.some_ne_none _

/-- **Failure: the version of session key and one-pass packets** can be set and is reported, but 3 is written: objects that differ there only are written alike. -/
theorem C74_version_fails (t : Tag1) (u : Tag4) (v : UInt8) :
    (Tag1.call (.version v) t).version = v ∧ (Tag1.call (.version v) t).raw = t.raw ∧ (Tag4.call (.version v) u).version = v ∧ (Tag4.call (.version v) u).raw = u.raw :=
  ⟨rfl, rfl, rfl, rfl⟩

/-- **Failure: a signature whose version is not set** is written without any of its fields but the numbers: a new object has version 0. -/
theorem C74_unversioned_fails (rawE : E → Bytes) (calls : List (Tag2.Call E)) (hc : ∀ c ∈ calls, ∀ v, c ≠ .version v) :
    (runCalls Tag2.call (Tag2.fresh : Tag2 E) calls).raw rawE = 0 :: writeMPIs (lastSet (fun | .mpi v => some v | _ => none) [] calls) := by
  obtain ⟨h1, -, -, -, -, h6⟩ := C74_signature calls (Tag2.fresh : Tag2 E)
  have hv : lastSet (fun | .version v => some v | _ => none) (Tag2.fresh : Tag2 E).version calls = 0 := by
    unfold lastSet
    have : calls.reverse.findSome? (fun c : Tag2.Call E => match c with | .version v => some v | _ => none) = none := by
      rw [List.findSome?_eq_none_iff]
      intro c hcm
      have := hc c (List.mem_reverse.mp hcm)
      cases c <;> first | rfl | exact absurd rfl (this _)
    rw [this]
    rfl
  rw [Tag2.raw, h1, hv, h6]
  rfl

/-- **Failure: an image that only has its image set** is not valid, although it is written as it should be. -/
theorem C74_image_fails (image : Bytes) : (Attr.call (.image image) .fresh).raw = [16, 0, 1, 1] ++ List.replicate 12 0 ++ image ∧
    attrsValid [Attr.call (.image image) .fresh] ≠ .success := by
  refine ⟨rfl, ?_⟩
  simp [attrsValid, Attr.valid, Attr.call, Attr.fresh]

/-! ## Kinds of packets -/

/-- The questions about kinds of packets are answered as the classes say. -/
theorem C74_kinds (b : Body E) :
    (isPublic b.tag = true ↔ (∃ k, b = .publicKey k) ∨ ∃ k, b = .publicSubkey k) ∧ (isSecret b.tag = true ↔ (∃ t, b = .secretKey t) ∨ ∃ t, b = .secretSubkey t) ∧
    (isPrimaryKey b.tag = true ↔ (∃ k, b = .publicKey k) ∨ ∃ t, b = .secretKey t) ∧ (isSubkey b.tag = true ↔ (∃ k, b = .publicSubkey k) ∨ ∃ t, b = .secretSubkey t) ∧
    (isKeyPacket b.tag = true ↔ isPublic b.tag = true ∨ isSecret b.tag = true) ∧ (isUser b.tag = true ↔ (∃ u, b = .userId u) ∨ ∃ a, b = .userAttr a) ∧
    (isSessionKey b.tag = true ↔ (∃ t, b = .pkesk t) ∨ ∃ t, b = .skesk t) ∧ (isSymProtectedData b.tag = true ↔ (∃ d, b = .symEnc d) ∨ ∃ v d, b = .seip v d) := by
  cases b with
  | priv n x =>
    have : ∀ m, m < 60 → ¬ 60 + n = m := by omega
    simp [isPublic, isSecret, isPrimaryKey, isSubkey, isKeyPacket, isUser, isSessionKey, isSymProtectedData, Body.tag, this]
  | _ => simp [isPublic, isSecret, isPrimaryKey, isSubkey, isKeyPacket, isUser, isSessionKey, isSymProtectedData, Body.tag]

/-! ## Cases -/

/-- A one-pass packet whose key ID is set twice, the second time to one of the wrong size. -/
example : runCalls Tag4.call .fresh [.type 1, .keyid [1, 2, 3, 4, 5, 6, 7, 8], .keyid [1, 2], .type 0x13, .pka 17, .hash 8] = ⟨3, 0x13, 8, 17, [1, 2, 3, 4, 5, 6, 7, 8], 1⟩ := by decide +kernel

/-- A literal packet built and written. -/
example : (runCalls Tag11.call .fresh [.literal (ascii "no"), .format 0x62, .filename (ascii "f"), .literal (ascii "hi")]).raw = [0x62, 1, 0x66, 0, 0, 0, 0, 0x68, 0x69] := by decide +kernel

end OpenPGP
