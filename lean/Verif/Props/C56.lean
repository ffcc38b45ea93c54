import Verif.Model.Commands
import Verif.Props.C55
import Verif.Props.CliDemo
import Mathlib.Data.Nat.Digits.Lemmas
import Mathlib.Tactic.IntervalCases

/-!
# C56: what the commands of the tool do with their arguments and with what the library tells them
-/
namespace OpenPGP.Cli
open OpenPGP OpenPGP.Cli.Module Commands
variable {E : Type}

/-- Everything of a module but the function. -/
private abbrev Shape := Bytes × List Bytes × List (Bytes × Bytes) × List (Bytes × Bool)

private def shape (m : Module) : Shape := (m.name, m.positional, m.opts, m.flags)

private def unshape (s : Shape) : Module := ⟨s.1, s.2.1, s.2.2.1, s.2.2.2, fun _ => .throw⟩

/-- An outside in which no file can be opened. -/
private def env0 : Env Nat where
  cr := ⟨fun _ _ => [], fun _ _ => .throw⟩
  z := ⟨fun _ _ => .throw, fun _ _ => .throw⟩
  rawE := fun _ => []
  readE := fun _ => .throw
  depth := 0
  now := 0
  nonces := []
  salt := []
  rand := []
  sessionKey := []
  padding := []
  ephemeral := 0
  files := fun _ => none
  date := fun _ => []
  shown := ⟨fun _ => [], fun _ => 0, fun _ => 0, fun i => i, fun _ => false⟩
  showE := fun _ => .throw
  genRand := ⟨fun _ => 0, fun _ => false, 0, 0, 0, [], [], [], []⟩
  genNonces := []
  genSubs := []
  canWrite := fun _ => false

private theorem shapes (e : Env E) : (ordered e).map shape = (ordered env0).map shape := rfl

private theorem shapes_fine : ((ordered env0).map shape).all (fun s => (unshape s).constructs && decide (s.1.take 4 ≠ ascii "help")) = true := by
  decide +kernel

/-- The names of the commands. -/
private theorem names (e : Env E) : (ordered e).map Module.name = ((ordered env0).map shape).map Prod.fst := by
  rw [← shapes e, List.map_map]; rfl

/-- Every command of the tool is accepted by the constructor, no two have a name in common, and none is hidden by `help`. -/
theorem C56_table (e : Env E) : (ordered e).length = 29 ∧ ((ordered e).map Module.name).Nodup ∧
    ∀ m ∈ ordered e, m.constructs = true ∧ m.name.take 4 ≠ ascii "help" := by
  refine ⟨rfl, ?_, fun m hm => ?_⟩
  · rw [names]; decide +kernel
  · have h := List.all_eq_true.mp shapes_fine (shape m) (by rw [← shapes e]; exact List.mem_map_of_mem hm)
    rw [Bool.and_eq_true, decide_eq_true_eq] at h
    exact h

/-- What a command line tells a command: its words, options and flags. -/
structure Told (m : Module) (l : Line) (p : Parsed) : Prop where
  word : ∀ i (h : i < m.positional.length), p.args m.positional[i] = l.words[i]?
  opt : ∀ n d, m.opts.lookup n = some d → p.args n = some ((l.values n).getLast?.getD d)
  flag : ∀ n d, m.flags.lookup n = some d → p.flags n = some (if l.has n then !d else d)

/-- Every command of the tool runs with what the line says, and the program ends with -1 if the command does and with 0 otherwise. -/
theorem C56_command (e : Env E) (m : Module) (hm : m ∈ ordered e) (l : Line) (hf : l.fits m.opts m.flags) (hd : [45, 45] ∉ l.verbatim.getD [])
    (hw : m.positional.length ≤ l.words.length) :
    ∃ p, Told m l p ∧ ∀ r, main (ordered e) (m.name :: l.spell) = .ok r ↔
      ∃ c out, m.run p = .ok ⟨c, out⟩ ∧ r = ⟨if c = -1 then -1 else 0, out⟩ := by
  obtain ⟨-, hn, ht⟩ := C56_table e
  obtain ⟨hc, hh⟩ := ht m hm
  obtain ⟨p, h1, h2, h3, h4, -, -⟩ := C55_reads m hc l hf hd hw
  refine ⟨p, ⟨h2, h3, h4⟩, fun r => ?_⟩
  rw [C55_dispatch (ordered e) hn m hm hh, call, h1]
  constructor
  · intro h
    obtain ⟨⟨c, o⟩, hr, h⟩ := Out.bind_eq_ok.mp h
    refine ⟨c, o, hr, ?_⟩
    simp only at h
    split at h
    · next hc => obtain rfl := Out.ok.inj h; simp [hc]
    · next hc => obtain rfl := Out.ok.inj h; simp [hc]
  · rintro ⟨c, o, hr, rfl⟩
    simp only [hr, Out.ok_bind]
    split <;> rfl

/-- Too few words: nothing runs. -/
theorem C56_too_few (e : Env E) (m : Module) (hm : m ∈ ordered e) (l : Line) (hf : l.fits m.opts m.flags) (hd : [45, 45] ∉ l.verbatim.getD [])
    (hw : l.words.length < m.positional.length) : main (ordered e) (m.name :: l.spell) = .ok ⟨-1, []⟩ := by
  obtain ⟨-, hn, ht⟩ := C56_table e
  obtain ⟨hc, hh⟩ := ht m hm
  rw [C55_dispatch (ordered e) hn m hm hh]
  exact C55_unread m _ _ (C55_too_few m hc l hf hd hw)

/-! ## Verifying -/

/-- The verdict in words: a sentence, with ` not` in it for no. -/
def wording (before after : Bytes) : Verdict → Bytes
  | .yes => before ++ after ++ [10]
  | _ => before ++ ascii " not" ++ after ++ [10]

/-- `" signed by "KEY" (ID)."` -/
def byKey (kname id : Bytes) : Bytes := ascii " signed by \"" ++ kname ++ ascii "\" (" ++ hexlify id ++ ascii ")."

theorem arg_ok {p : Parsed} {n : String} {v : Bytes} (h : p.args (ascii n) = some v) : p.arg n = .ok v := by rw [Parsed.arg, h]

theorem flag_ok {p : Parsed} {n : String} {v : Bool} (h : p.flags (ascii n) = some v) : p.flag n = .ok v := by rw [Parsed.flag, h]

theorem words_get {ws : List Bytes} {n : Nat} {xs : List Bytes} (h : ws.take n = xs) (i : Nat) (hi : i < n) : ws[i]? = xs[i]? := by
  rw [← h, List.getElem?_take, if_pos hi]

theorem words_le {ws : List Bytes} {n : Nat} {xs : List Bytes} (h : ws.take n = xs) (hx : xs.length = n) : n ≤ ws.length := by
  have := congrArg List.length h
  rw [List.length_take] at this
  omega

/-- A run that ends with 0, having printed this. -/
def Ends (r : Out Ran) (out : Bytes) : Prop := ∃ c, c ≠ -1 ∧ r = .ok ⟨c, out⟩

theorem ends_iff {r : Out Ran} {out : Bytes} :
    (∃ c o, r = .ok ⟨c, o⟩ ∧ (⟨0, out⟩ : Ran) = ⟨if c = -1 then -1 else 0, o⟩) ↔ Ends r out := by
  constructor
  · rintro ⟨c, o, h1, h2⟩
    by_cases hc : c = -1
    · rw [if_pos hc] at h2; exact absurd (congrArg Ran.code h2) (by simp)
    · rw [if_neg hc] at h2
      obtain rfl : out = o := congrArg Ran.out h2
      exact ⟨c, hc, h1⟩
  · rintro ⟨c, hc, h⟩
    exact ⟨c, out, h, by rw [if_neg hc]⟩

theorem ends_failed {out : Bytes} : Ends failed out ↔ False := by
  simp only [Ends, failed, iff_false, not_exists, not_and]
  intro c hc h
  exact hc (congrArg Ran.code (Out.ok.inj h)).symm

theorem ends_printed {t out : Bytes} : Ends (printed t) out ↔ out = t ++ [10] := by
  simp only [Ends, printed]
  constructor
  · rintro ⟨c, -, h⟩; exact (congrArg Ran.out (Out.ok.inj h)).symm
  · rintro rfl; exact ⟨0, by decide, rfl⟩

theorem ends_bind {α : Type} {x : Out α} {k : α → Out Ran} {out : Bytes} :
    Ends (x >>= k) out ↔ ∃ a, x = .ok a ∧ Ends (k a) out := by
  simp only [Ends, Out.bind_eq_ok]
  constructor
  · rintro ⟨c, hc, a, h1, h2⟩; exact ⟨a, h1, c, hc, h2⟩
  · rintro ⟨a, h1, c, hc, h2⟩; exact ⟨c, hc, a, h1, h2⟩

theorem ends_if {c : Prop} [Decidable c] {k : Out Ran} {out : Bytes} : Ends (if c then failed else k) out ↔ ¬ c ∧ Ends k out := by
  by_cases h : c
  · simp [h, ends_failed]
  · simp [h]

theorem ends_verdict {v : Verdict} {s out : Bytes} : Ends (verdict v s) out ↔ v ≠ .error ∧ out = s ++ [10] := by
  cases v
  case error => simp [verdict, ends_failed]
  all_goals
    simp only [verdict, Ends]
    constructor
    · rintro ⟨c, -, h⟩; exact ⟨by decide, (congrArg Ran.out (Out.ok.inj h)).symm⟩
    · rintro ⟨-, rfl⟩; exact ⟨_, by decide, rfl⟩

private theorem worded (v : Verdict) (a b : Bytes) (h : v ≠ .error) : a ++ notUnless v ++ b ++ [10] = wording a b v := by
  cases v <;> simp_all [wording, notUnless]

private theorem worded' (v : Verdict) (a b c d f : Bytes) (h : v ≠ .error) :
    a ++ notUnless v ++ b ++ c ++ d ++ f ++ ascii ")." ++ [10] = wording a (b ++ c ++ d ++ f ++ ascii ").") v := by
  cases v <;> simp_all [wording, notUnless]

/-- `verify-file KEY MESSAGE`: what it prints is the verdict of the library; the exit status is 0 for a good and a bad signature. -/
theorem C56_verify_file (e : Env E) (l : Line) (hl : l.fits (verifyFile e).opts (verifyFile e).flags) (hd : [45, 45] ∉ l.verbatim.getD [])
    (kname name : Bytes) (hw : l.words.take 2 = [kname, name]) (out : Bytes) :
    main (ordered e) (ascii "verify-file" :: l.spell) = .ok ⟨0, out⟩ ↔
      ∃ kf f hs k m v id, e.files kname = some kf ∧
        e.files name = some f ∧
        keyOf e.readE kf = .ok (hs, k) ∧
        Msg.ofString e.z e.readE e.depth f = .ok m ∧
        verifyBinary e.cr e.z e.rawE e.readE e.depth k m = .ok v ∧
        v ≠ .error ∧
        k.keyid e.cr = .ok id ∧
        out = wording (ascii "The data in \"" ++ name ++ ascii "\" was") (byKey kname id) v := by
  obtain ⟨p, ht, hr⟩ := C56_command e (verifyFile e) (by simp [ordered]) l hl hd (show 2 ≤ _ from words_le hw rfl)
  have a0 : p.arg "key" = .ok kname := arg_ok ((ht.word 0 (show 0 < 2 by decide)).trans (words_get hw 0 (by decide)))
  have a1 : p.arg "message" = .ok name := arg_ok ((ht.word 1 (show 1 < 2 by decide)).trans (words_get hw 1 (by decide)))
  refine ((hr ⟨0, out⟩).trans ends_iff).trans ?_
  simp only [verifyFile, a0, a1, Out.ok_bind]
  cases g0 : e.files kname with
  | none => simp [ends_failed]
  | some kf =>
  cases g1 : e.files name with
  | none => simp [ends_failed]
  | some f =>
  simp only [Option.some.injEq, ends_bind, Prod.exists, ends_if, ends_verdict]
  constructor
  · rintro ⟨hs, k, h1, m, h2, v, h3, h4, id, h5, -, rfl⟩
    exact ⟨kf, f, hs, k, m, v, id, rfl, rfl, h1, h2, h3, h4, h5, worded v _ _ h4⟩
  · rintro ⟨_, _, hs, k, m, v, id, rfl, rfl, h1, h2, h3, h4, h5, rfl⟩
    exact ⟨hs, k, h1, m, h2, v, h3, h4, id, h5, h4, (worded v _ _ h4).symm⟩

/-- `verify-detached-signature KEY FILE SIGNATURE`. -/
theorem C56_verify_detached (e : Env E) (l : Line) (hl : l.fits (verifyDetachedSignature e).opts (verifyDetachedSignature e).flags) (hd : [45, 45] ∉ l.verbatim.getD [])
    (kname name sname : Bytes) (hw : l.words.take 3 = [kname, name, sname]) (out : Bytes) :
    main (ordered e) (ascii "verify-detached-signature" :: l.spell) = .ok ⟨0, out⟩ ↔
      ∃ kf f sf hs k s v id, e.files kname = some kf ∧
        e.files name = some f ∧
        e.files sname = some sf ∧
        keyOf e.readE kf = .ok (hs, k) ∧
        detachedFrom e.readE sf = .ok s ∧
        verifyDetached e.cr e.rawE k f s = .ok v ∧
        v ≠ .error ∧
        k.keyid e.cr = .ok id ∧
        out = wording (ascii "File \"" ++ name ++ ascii "\" was") (byKey kname id) v := by
  obtain ⟨p, ht, hr⟩ := C56_command e (verifyDetachedSignature e) (by simp [ordered]) l hl hd (show 3 ≤ _ from words_le hw rfl)
  have a0 : p.arg "key" = .ok kname := arg_ok ((ht.word 0 (show 0 < 3 by decide)).trans (words_get hw 0 (by decide)))
  have a1 : p.arg "file" = .ok name := arg_ok ((ht.word 1 (show 1 < 3 by decide)).trans (words_get hw 1 (by decide)))
  have a2 : p.arg "signature" = .ok sname := arg_ok ((ht.word 2 (show 2 < 3 by decide)).trans (words_get hw 2 (by decide)))
  refine ((hr ⟨0, out⟩).trans ends_iff).trans ?_
  simp only [verifyDetachedSignature, a0, a1, a2, Out.ok_bind]
  cases g0 : e.files kname with
  | none => simp [ends_failed]
  | some kf =>
  cases g1 : e.files name with
  | none => simp [ends_failed]
  | some f =>
  cases g2 : e.files sname with
  | none => simp [ends_failed]
  | some sf =>
  simp only [Option.some.injEq, ends_bind, Prod.exists, ends_if, ends_verdict]
  constructor
  · rintro ⟨hs, k, h1, s, h2, v, h3, h4, id, h5, -, rfl⟩
    exact ⟨kf, f, sf, hs, k, s, v, id, rfl, rfl, rfl, h1, h2, h3, h4, h5, worded v _ _ h4⟩
  · rintro ⟨_, _, _, hs, k, s, v, id, rfl, rfl, rfl, h1, h2, h3, h4, h5, rfl⟩
    exact ⟨hs, k, h1, s, h2, v, h3, h4, id, h5, h4, (worded v _ _ h4).symm⟩

/-- `verify-cleartext-signature KEY SIGNATURE`. -/
theorem C56_verify_cleartext (e : Env E) (l : Line) (hl : l.fits (verifyCleartextSignature e).opts (verifyCleartextSignature e).flags) (hd : [45, 45] ∉ l.verbatim.getD [])
    (kname sname : Bytes) (hw : l.words.take 2 = [kname, sname]) (out : Bytes) :
    main (ordered e) (ascii "verify-cleartext-signature" :: l.spell) = .ok ⟨0, out⟩ ↔
      ∃ kf sf hs k s v id, e.files kname = some kf ∧
        e.files sname = some sf ∧
        keyOf e.readE kf = .ok (hs, k) ∧
        cleartextOf (Pkt.parse e.readE) sf = .ok s ∧
        verifyCleartext e.cr e.rawE k s = .ok v ∧
        v ≠ .error ∧
        k.keyid e.cr = .ok id ∧
        out = wording (ascii "This message was") (byKey kname id) v := by
  obtain ⟨p, ht, hr⟩ := C56_command e (verifyCleartextSignature e) (by simp [ordered]) l hl hd (show 2 ≤ _ from words_le hw rfl)
  have a0 : p.arg "key" = .ok kname := arg_ok ((ht.word 0 (show 0 < 2 by decide)).trans (words_get hw 0 (by decide)))
  have a1 : p.arg "signature" = .ok sname := arg_ok ((ht.word 1 (show 1 < 2 by decide)).trans (words_get hw 1 (by decide)))
  refine ((hr ⟨0, out⟩).trans ends_iff).trans ?_
  simp only [verifyCleartextSignature, a0, a1, Out.ok_bind]
  cases g0 : e.files kname with
  | none => simp [ends_failed]
  | some kf =>
  cases g1 : e.files sname with
  | none => simp [ends_failed]
  | some sf =>
  simp only [Option.some.injEq, ends_bind, Prod.exists, ends_if, ends_verdict]
  constructor
  · rintro ⟨hs, k, h1, s, h2, v, h3, h4, id, h5, -, rfl⟩
    exact ⟨kf, sf, hs, k, s, v, id, rfl, rfl, h1, h2, h3, h4, h5, worded v _ _ h4⟩
  · rintro ⟨_, _, hs, k, s, v, id, rfl, rfl, h1, h2, h3, h4, h5, rfl⟩
    exact ⟨hs, k, h1, s, h2, v, h3, h4, id, h5, h4, (worded v _ _ h4).symm⟩

/-- `verify-timestamp KEY SIGNATURE`. -/
theorem C56_verify_timestamp (e : Env E) (l : Line) (hl : l.fits (Commands.verifyTimestamp e).opts (Commands.verifyTimestamp e).flags) (hd : [45, 45] ∉ l.verbatim.getD [])
    (kname sname : Bytes) (hw : l.words.take 2 = [kname, sname]) (out : Bytes) :
    main (ordered e) (ascii "verify-timestamp" :: l.spell) = .ok ⟨0, out⟩ ↔
      ∃ kf sf hs k s v id, e.files kname = some kf ∧
        e.files sname = some sf ∧
        keyOf e.readE kf = .ok (hs, k) ∧
        detachedFrom e.readE sf = .ok s ∧
        OpenPGP.verifyTimestamp e.cr e.rawE k s = .ok v ∧
        v ≠ .error ∧
        k.keyid e.cr = .ok id ∧
        out = wording (ascii "Timestamp signature in \"" ++ sname ++ ascii "\" was") (byKey kname id) v := by
  obtain ⟨p, ht, hr⟩ := C56_command e (Commands.verifyTimestamp e) (by simp [ordered]) l hl hd (show 2 ≤ _ from words_le hw rfl)
  have a0 : p.arg "key" = .ok kname := arg_ok ((ht.word 0 (show 0 < 2 by decide)).trans (words_get hw 0 (by decide)))
  have a1 : p.arg "signature" = .ok sname := arg_ok ((ht.word 1 (show 1 < 2 by decide)).trans (words_get hw 1 (by decide)))
  refine ((hr ⟨0, out⟩).trans ends_iff).trans ?_
  simp only [Commands.verifyTimestamp, a0, a1, Out.ok_bind]
  cases g0 : e.files kname with
  | none => simp [ends_failed]
  | some kf =>
  cases g1 : e.files sname with
  | none => simp [ends_failed]
  | some sf =>
  simp only [Option.some.injEq, ends_bind, Prod.exists, ends_if, ends_verdict]
  constructor
  · rintro ⟨hs, k, h1, s, h2, v, h3, h4, id, h5, -, rfl⟩
    exact ⟨kf, sf, hs, k, s, v, id, rfl, rfl, h1, h2, h3, h4, h5, worded v _ _ h4⟩
  · rintro ⟨_, _, hs, k, s, v, id, rfl, rfl, h1, h2, h3, h4, h5, rfl⟩
    exact ⟨hs, k, h1, s, h2, v, h3, h4, id, h5, h4, (worded v _ _ h4).symm⟩

/-- `verify-primary-key SIGNER SIGNEE`. -/
theorem C56_verify_primary (e : Env E) (l : Line) (hl : l.fits (Commands.verifyPrimaryKey e).opts (Commands.verifyPrimaryKey e).flags) (hd : [45, 45] ∉ l.verbatim.getD [])
    (rname ename : Bytes) (hw : l.words.take 2 = [rname, ename]) (out : Bytes) :
    main (ordered e) (ascii "verify-primary-key" :: l.spell) = .ok ⟨0, out⟩ ↔
      ∃ rf ef hr' r hk' k v kid rid, e.files rname = some rf ∧
        e.files ename = some ef ∧
        keyOf e.readE rf = .ok (hr', r) ∧
        keyOf e.readE ef = .ok (hk', k) ∧
        OpenPGP.verifyPrimaryKey e.cr e.rawE r k = .ok v ∧
        v ≠ .error ∧
        k.keyid e.cr = .ok kid ∧
        r.keyid e.cr = .ok rid ∧
        out = wording (ascii "Key in \"" ++ ename ++ ascii "\" (" ++ hexlify kid ++ ascii ") was") (ascii " signed by key in \"" ++ rname ++
          ascii "\" (" ++ hexlify rid ++ ascii ").") v := by
  obtain ⟨p, ht, hr⟩ := C56_command e (Commands.verifyPrimaryKey e) (by simp [ordered]) l hl hd (show 2 ≤ _ from words_le hw rfl)
  have a0 : p.arg "signer-key" = .ok rname := arg_ok ((ht.word 0 (show 0 < 2 by decide)).trans (words_get hw 0 (by decide)))
  have a1 : p.arg "signee-key" = .ok ename := arg_ok ((ht.word 1 (show 1 < 2 by decide)).trans (words_get hw 1 (by decide)))
  refine ((hr ⟨0, out⟩).trans ends_iff).trans ?_
  simp only [Commands.verifyPrimaryKey, a0, a1, Out.ok_bind]
  cases g0 : e.files rname with
  | none => simp [ends_failed]
  | some rf =>
  cases g1 : e.files ename with
  | none => simp [ends_failed]
  | some ef =>
  simp only [Option.some.injEq, ends_bind, Prod.exists, ends_if, ends_verdict]
  constructor
  · rintro ⟨hr', r, h1, hk', k, h2, v, h3, h4, kid, h5, rid, h6, -, rfl⟩
    exact ⟨rf, ef, hr', r, hk', k, v, kid, rid, rfl, rfl, h1, h2, h3, h4, h5, h6, worded' v _ _ _ _ _ h4⟩
  · rintro ⟨_, _, hr', r, hk', k, v, kid, rid, rfl, rfl, h1, h2, h3, h4, h5, h6, rfl⟩
    exact ⟨hr', r, h1, hk', k, h2, v, h3, h4, kid, h5, rid, h6, h4, (worded' v _ _ _ _ _ h4).symm⟩

/-- `verify-revoke KEY CERTIFICATE`. -/
theorem C56_verify_revoke (e : Env E) (l : Line) (hl : l.fits (Commands.verifyRevoke e).opts (Commands.verifyRevoke e).flags) (hd : [45, 45] ∉ l.verbatim.getD [])
    (kname cname : Bytes) (hw : l.words.take 2 = [kname, cname]) (out : Bytes) :
    main (ordered e) (ascii "verify-revoke" :: l.spell) = .ok ⟨0, out⟩ ↔
      ∃ kf cf hs k s v id, e.files kname = some kf ∧ e.files cname = some cf ∧ keyOf e.readE kf = .ok (hs, k) ∧
        revocationFrom e.readE cf = .ok s ∧ OpenPGP.verifyRevoke e.cr e.rawE k s = .ok v ∧ v ≠ .error ∧ k.keyid e.cr = .ok id ∧
        out = ascii "The certificate in \"" ++ cname ++ ascii "\" " ++ (if v = .yes then ascii "revokes" else ascii "does not revoke") ++
          ascii " key in \"" ++ kname ++ ascii "\" (" ++ hexlify id ++ ascii ")." ++ [10] := by
  obtain ⟨p, ht, hr⟩ := C56_command e (Commands.verifyRevoke e) (by simp [ordered]) l hl hd (show 2 ≤ _ from words_le hw rfl)
  have a0 : p.arg "key" = .ok kname := arg_ok ((ht.word 0 (show 0 < 2 by decide)).trans (words_get hw 0 (by decide)))
  have a1 : p.arg "revocation-certificate" = .ok cname := arg_ok ((ht.word 1 (show 1 < 2 by decide)).trans (words_get hw 1 (by decide)))
  refine ((hr ⟨0, out⟩).trans ends_iff).trans ?_
  simp only [Commands.verifyRevoke, a0, a1, Out.ok_bind]
  cases g0 : e.files kname with
  | none => simp [ends_failed]
  | some kf =>
  cases g1 : e.files cname with
  | none => simp [ends_failed]
  | some cf =>
  simp only [Option.some.injEq, ends_bind, Prod.exists, ends_if, ends_verdict]
  constructor
  · rintro ⟨hs, k, h1, s, h2, v, h3, h4, id, h5, -, rfl⟩
    exact ⟨kf, cf, hs, k, s, v, id, rfl, rfl, h1, h2, h3, h4, h5, rfl⟩
  · rintro ⟨_, _, hs, k, s, v, id, rfl, rfl, h1, h2, h3, h4, h5, rfl⟩
    exact ⟨hs, k, h1, s, h2, v, h3, h4, id, h5, h4, rfl⟩

/-! ## Fingerprints -/

/-- The octets in groups of `n`; the last group may be shorter but not empty. -/
structure InGroups (n : Nat) (data : Bytes) (gs : List Bytes) : Prop where
  all : gs.flatten = data
  full : ∀ g ∈ gs.dropLast, g.length = n
  last : ∀ g ∈ gs.getLast?, 0 < g.length ∧ g.length ≤ n

private theorem rem_eq (n len : Nat) (hl : n < len) :
    (if len % n = 0 ∨ n = 1 then n else len % n) = (if (len - n) % n = 0 ∨ n = 1 then n else (len - n) % n) := by
  have : len % n = (len - n) % n := Nat.mod_eq_sub_mod (by omega)
  rw [this]

private theorem groups_eq (sep : Bytes) (n : Nat) (hn : 0 < n) : ∀ (fuel : Nat) (fp : Bytes), fp.length ≤ fuel → fp ≠ [] →
    ∃ gs, InGroups n fp gs ∧ gs ≠ [] ∧ groups sep n fuel fp ++ hexlify (fp.drop (fp.length - (if fp.length % n = 0 ∨ n = 1 then n else fp.length % n))) =
      sep.intercalate (gs.map fun g => hexlify g) := by
  intro fuel
  induction fuel with
  | zero => intro fp hf hne; exact absurd (List.length_eq_zero_iff.mp (by omega)) hne
  | succ fuel ih =>
    intro fp hf hne
    by_cases hl : n < fp.length
    · obtain ⟨gs, hg, hne', he⟩ := ih (fp.drop n) (by rw [List.length_drop]; omega) (by
        intro hc; have := congrArg List.length hc; rw [List.length_drop, List.length_nil] at this; omega)
      refine ⟨fp.take n :: gs, ⟨?_, ?_, ?_⟩, by simp, ?_⟩
      · rw [List.flatten_cons, hg.all, List.take_append_drop]
      · intro g h
        rw [List.dropLast_cons_of_ne_nil hne'] at h
        rcases List.mem_cons.mp h with rfl | h
        · rw [List.length_take]; omega
        · exact hg.full g h
      · intro g h
        have : (fp.take n :: gs).getLast? = gs.getLast? := by
          obtain ⟨x, xs, rfl⟩ := List.exists_cons_of_ne_nil hne'
          rfl
        rw [this] at h
        exact hg.last g h
      · rw [groups, if_pos hl, rem_eq n fp.length hl]
        rw [List.length_drop, List.drop_drop] at he
        generalize hr : (if (fp.length - n) % n = 0 ∨ n = 1 then n else (fp.length - n) % n) = r at he ⊢
        have hrn : r ≤ fp.length - n := by
          rw [← hr]
          split
          · next h =>
            rcases h with h | h
            · exact Nat.le_of_dvd (by omega) (Nat.dvd_of_mod_eq_zero h)
            · omega
          · exact Nat.mod_le _ _
        have e1 : n + (fp.length - n - r) = fp.length - r := by omega
        rw [e1] at he
        obtain ⟨x, xs, rfl⟩ := List.exists_cons_of_ne_nil hne'
        rw [List.append_assoc, List.append_assoc, he]
        simp [List.intercalate]
    · refine ⟨[fp], ⟨by simp, by simp, ?_⟩, by simp, ?_⟩
      · intro g h
        simp only [List.getLast?_singleton, Option.mem_def, Option.some.injEq] at h
        subst h
        have := List.length_pos_iff.mpr hne
        omega
      · rw [groups, if_neg hl]
        have hp := List.length_pos_iff.mpr hne
        have : fp.length - (if fp.length % n = 0 ∨ n = 1 then n else fp.length % n) = 0 := by
          by_cases he : fp.length = n
          · rw [if_pos (Or.inl (by rw [he, Nat.mod_self]))]; omega
          · have hm : fp.length % n = fp.length := Nat.mod_eq_of_lt (by omega)
            rw [hm, if_neg (by omega)]; omega
        simp [this, List.intercalate]

/-- `fingerprint [-s SEPARATOR] [-g GROUP] KEY-FILE`: the fingerprint in hexadecimal, with the separator between groups of `GROUP` octets. -/
theorem C56_fingerprint (e : Env E) (l : Line) (hl : l.fits (fingerprint e).opts (fingerprint e).flags) (hd : [45, 45] ∉ l.verbatim.getD [])
    (name : Bytes) (hw : l.words.take 1 = [name]) (f : Bytes) (hf : e.files name = some f) (n : Nat)
    (hn : readUnsigned 64 ((l.values (ascii "-g")).getLast?.getD (ascii "1")) = some n)
    (hs : List (Bytes × Bytes)) (key : KeyObj E) (hk : keyOf e.readE f = .ok (hs, key)) (q : Pkt E) (rest : List (Pkt E)) (hq : key.packets = q :: rest)
    (kp : KeyPkt) (hkp : q.body.keyPart = some kp) (fp : Bytes) (hfp : kp.fingerprint e.cr = .ok fp) (hne : fp ≠ []) :
    ∃ out, main (ordered e) (ascii "fingerprint" :: l.spell) = .ok ⟨0, out ++ [10]⟩ ∧
      (n = 0 → out = hexlify fp) ∧
      (0 < n → ∃ gs, InGroups n fp gs ∧ out = ((l.values (ascii "-s")).getLast?.getD (ascii ":")).intercalate (gs.map fun g => hexlify g)) := by
  obtain ⟨p, ht, hr⟩ := C56_command e (fingerprint e) (by simp [ordered]) l hl hd (show 1 ≤ _ from words_le hw rfl)
  have a0 : p.arg "key-file" = .ok name := arg_ok ((ht.word 0 (show 0 < 1 by decide)).trans (words_get hw 0 (by decide)))
  have a1 : p.arg "-g" = .ok ((l.values (ascii "-g")).getLast?.getD (ascii "1")) := arg_ok (ht.opt _ _ (show List.lookup _ [_, _] = _ by decide +kernel))
  have a2 : p.arg "-s" = .ok ((l.values (ascii "-s")).getLast?.getD (ascii ":")) := arg_ok (ht.opt _ _ (show List.lookup _ [_, _] = _ by decide +kernel))
  generalize (l.values (ascii "-s")).getLast?.getD (ascii ":") = sep at a2 ⊢
  have key : ∀ out, Ends ((fingerprint e).run p) out → main (ordered e) (ascii "fingerprint" :: l.spell) = .ok ⟨0, out⟩ :=
    fun out h => ((hr ⟨0, out⟩).trans ends_iff).mpr h
  by_cases h0 : n = 0
  · refine ⟨hexlify fp, key _ ?_, fun _ => rfl, fun h => by omega⟩
    simp only [fingerprint, a0, a1, Out.ok_bind, hf, hn, hk, hq, hkp, hfp, h0, ne_eq, not_true_eq_false, if_false, ends_printed]
  · obtain ⟨gs, hg, -, he⟩ := groups_eq sep n (by omega) fp.length fp (le_refl _) hne
    refine ⟨_, key _ ?_, fun h => absurd h h0, fun _ => ⟨gs, hg, rfl⟩⟩
    simp only [fingerprint, a0, a1, a2, Out.ok_bind, hf, hn, hk, hq, hkp, hfp, h0, ne_eq, not_false_eq_true, if_true]
    have hrem : (if fp.length % n = 0 ∨ n = 1 then n else fp.length % n) ≤ fp.length ∨
        fp.length < (if fp.length % n = 0 ∨ n = 1 then n else fp.length % n) := by omega
    generalize hrr : (if fp.length % n = 0 ∨ n = 1 then n else fp.length % n) = r at he hrem ⊢
    have hp := List.length_pos_iff.mpr hne
    have hle : r ≤ fp.length := by
      rw [← hrr]
      split
      · next h =>
        rcases h with h | h
        · exact Nat.le_of_dvd hp (Nat.dvd_of_mod_eq_zero h)
        · omega
      · exact Nat.mod_le _ _
    have hsub : subSz fp.length r = fp.length - r := by rw [subSz, if_pos hle]
    rw [hsub, substr, if_neg (by omega), Out.ok_bind, ends_printed, List.take_of_length_le (by rw [List.length_drop]; omega), he]

/-! ## Numbers on the command line -/

/-- A number in decimal digits. -/
def decimal (n : Nat) : Bytes := if n = 0 then [48] else (Nat.digits 10 n).reverse.map fun d => UInt8.ofNat (48 + d)

private theorem digit_ok (d : Nat) (h : d < 10) : (48 : UInt8) ≤ UInt8.ofNat (48 + d) ∧ UInt8.ofNat (48 + d) ≤ 57 ∧ (UInt8.ofNat (48 + d)).toNat - 48 = d := by
  interval_cases d <;> decide

private theorem readDigits_digits : ∀ (ds : List Nat), (∀ d ∈ ds, d < 10) → ∀ (acc : Nat) (any : Bool), (ds ≠ [] ∨ any = true) →
    readDigits acc any (ds.map fun d => UInt8.ofNat (48 + d)) = some (ds.foldl (fun a d => 10 * a + d) acc) := by
  intro ds
  induction ds with
  | nil => intro _ acc any h; simp at h; simp [readDigits, h]
  | cons d ds ih =>
    intro hd acc any _
    obtain ⟨h1, h2, h3⟩ := digit_ok d (hd d (by simp))
    rw [List.map_cons, readDigits, if_pos ⟨h1, h2⟩, h3, ih (fun x hx => hd x (by simp [hx])) _ true (Or.inr rfl), List.foldl_cons]

private theorem foldl_digits (ds : List Nat) : ds.reverse.foldl (fun a d => 10 * a + d) 0 = Nat.ofDigits 10 ds := by
  rw [List.foldl_reverse]
  induction ds with
  | nil => rfl
  | cons d ds ih => rw [List.foldr_cons, ih, Nat.ofDigits_cons]; omega

theorem readDigits_decimal (n : Nat) : readDigits 0 false (decimal n) = some n := by
  rw [decimal]
  by_cases h : n = 0
  · subst h; decide
  · rw [if_neg h, readDigits_digits _ (fun d hd => Nat.digits_lt_base (by decide) (List.mem_reverse.mp hd)) 0 false
      (Or.inl (by simp [Nat.digits_ne_nil_iff_ne_zero, h])), foldl_digits, Nat.ofDigits_digits]

theorem decimal_head (n : Nat) : ∃ c cs, decimal n = c :: cs ∧ 48 ≤ c ∧ c ≤ 57 := by
  rw [decimal]
  by_cases h : n = 0
  · exact ⟨48, [], by rw [if_pos h], by decide, by decide⟩
  · rw [if_neg h]
    have hne : (Nat.digits 10 n).reverse ≠ [] := by simp [Nat.digits_ne_nil_iff_ne_zero, h]
    obtain ⟨d, ds, hd⟩ := List.exists_cons_of_ne_nil hne
    have hlt : d < 10 := Nat.digits_lt_base (m := n) (by decide) (List.mem_reverse.mp (by rw [hd]; simp))
    rw [hd]
    exact ⟨_, _, rfl, (digit_ok d hlt).1, (digit_ok d hlt).2.1⟩

theorem not_special {c : UInt8} (h1 : 48 ≤ c) (h2 : c ≤ 57) : isSpace c = false ∧ c ≠ 45 ∧ c ≠ 43 := by
  rw [UInt8.le_iff_toNat_le] at h1 h2
  have e1 : (48 : UInt8).toNat = 48 := rfl
  have e2 : (57 : UInt8).toNat = 57 := rfl
  refine ⟨?_, ?_, ?_⟩
  · have h3 : c ≠ 32 := by rintro rfl; revert h1; decide
    have h4 : ¬ c ≤ 13 := by
      rw [UInt8.le_iff_toNat_le]
      have : (13 : UInt8).toNat = 13 := rfl
      omega
    simp [isSpace, h3, h4]
  · rintro rfl; revert h1; decide
  · rintro rfl; revert h1; decide

/-- A number in decimal digits is read as that number if the type of the variable holds it, and refused otherwise. -/
theorem C56_number (bits n : Nat) : readUnsigned bits (decimal n) = if n < 2 ^ bits then some n else none := by
  obtain ⟨c, cs, hc, h1, h2⟩ := decimal_head n
  obtain ⟨g1, g2, g3⟩ := not_special h1 h2
  have hd := readDigits_decimal n
  rw [hc] at hd
  simp only [readUnsigned, hc, List.dropWhile_cons, g1, Bool.false_eq_true, if_false, List.head?_cons, Option.some.injEq, g2, g3, or_self, hd]

/-- A negative number is not refused: it is read as a large one. -/
theorem C56_negative_fails (bits n : Nat) (h : n < 2 ^ bits) : readUnsigned bits (45 :: decimal n) = some ((2 ^ bits - n) % 2 ^ bits) := by
  have hd := readDigits_decimal n
  have e : isSpace 45 = false := by decide
  simp only [readUnsigned, List.dropWhile_cons, e, Bool.false_eq_true, if_false, List.head?_cons, true_or, if_true, List.drop_succ_cons, List.drop_zero, hd, if_pos h]

/-- The reason for a revocation given as a number: what counts is the number modulo 256. -/
theorem C56_revocation_code (n : Nat) : revocationCode (decimal n) =
    if n < 2 ^ 32 ∧ n % 256 ≤ 3 then some (UInt8.ofNat n) else none := by
  rw [revocationCode, C56_number]
  by_cases h : n < 2 ^ 32
  · have e : (UInt8.ofNat n ≤ 3) ↔ n % 256 ≤ 3 := by
      rw [UInt8.le_iff_toNat_le, UInt8.toNat_ofNat']
      exact Iff.rfl
    simp only [h, if_true, true_and, e]
  · simp only [h, if_false, false_and]

/-- So a code that is none is taken for another: 256 for "no reason", 258 for "key material has been compromised". -/
theorem C56_revocation_code_fails (n : Nat) (hn : n < 2 ^ 24) (c : Nat) (hc : c ≤ 3) :
    revocationCode (decimal (256 * n + c)) = some (UInt8.ofNat c) := by
  rw [C56_revocation_code, if_pos (by omega)]
  congr 1
  apply UInt8.toNat.inj
  rw [UInt8.toNat_ofNat', UInt8.toNat_ofNat']
  omega

/-! ## Commands that do not do what they promise -/

/-- `sign-subkey` never signs anything: if it ends at all it ends with an error, having printed nothing. -/
theorem C56_sign_subkey_fails (e : Env E) (argv : List Bytes) (r : Ran) (h : main (ordered e) (ascii "sign-subkey" :: argv) = .ok r) : r = ⟨-1, []⟩ := by
  obtain ⟨-, hn, ht⟩ := C56_table e
  have hm : signSubkey e ∈ ordered e := by simp [ordered]
  have h' := (C55_dispatch (ordered e) hn (signSubkey e) hm (ht _ hm).2 argv).symm.trans h
  rw [call] at h'
  cases hp : (signSubkey e).parse argv with
  | error x => rw [hp] at h'; exact (Out.ok.inj h').symm
  | ok p =>
    rw [hp] at h'
    obtain ⟨q, hq, hx⟩ := Out.bind_eq_ok.mp h'
    have hq' : q = ⟨-1, []⟩ := by
      simp only [signSubkey] at hq
      obtain ⟨n1, -, hq⟩ := Out.bind_eq_ok.mp hq
      split at hq
      · exact (Out.ok.inj hq).symm
      · obtain ⟨n2, -, hq⟩ := Out.bind_eq_ok.mp hq
        split at hq
        · exact (Out.ok.inj hq).symm
        · obtain ⟨n3, -, hq⟩ := Out.bind_eq_ok.mp hq
          split at hq
          · exact (Out.ok.inj hq).symm
          · obtain ⟨_, -, hq⟩ := Out.bind_eq_ok.mp hq
            obtain ⟨_, -, hq⟩ := Out.bind_eq_ok.mp hq
            exact (Out.ok.inj hq).symm
    subst hq'
    exact (Out.ok.inj hx).symm

/-- `generate-revoke-key-cert` prints no certificate: when the library returns one, the command ends with an error and prints nothing. -/
theorem C56_revoke_key_cert_fails (e : Env E) (l : Line) (hl : l.fits (generateRevokeKeyCert e).opts (generateRevokeKeyCert e).flags)
    (hd : [45, 45] ∉ l.verbatim.getD []) (kname pass : Bytes) (hw : l.words.take 2 = [kname, pass]) (out : Bytes)
    (h : main (ordered e) (ascii "generate-revoke-key-cert" :: l.spell) = .ok ⟨0, out⟩) :
    ∃ kf hs pri c hash cert, e.files kname = some kf ∧ keyOf e.readE kf = .ok (hs, pri) ∧
      revokeKeyCert e.cr e.rawE ⟨pri, pass, pri, c, (l.values (ascii "-r")).getLast?.getD [], 4, hash⟩ e.now e.nonces = .ok cert ∧
      revocationPacket cert = none := by
  obtain ⟨p, ht, hr⟩ := C56_command e (generateRevokeKeyCert e) (by simp [ordered]) l hl hd (show 2 ≤ _ from words_le hw rfl)
  have a0 : p.arg "private-key" = .ok kname := arg_ok ((ht.word 0 (show 0 < 2 by decide)).trans (words_get hw 0 (by decide)))
  have a1 : p.arg "passphrase" = .ok pass := arg_ok ((ht.word 1 (show 1 < 2 by decide)).trans (words_get hw 1 (by decide)))
  have a2 : p.arg "-r" = .ok ((l.values (ascii "-r")).getLast?.getD []) := arg_ok (ht.opt _ _ (show List.lookup _ [_, _, _] = _ by decide +kernel))
  have h := ((hr ⟨0, out⟩).trans ends_iff).mp h
  simp only [generateRevokeKeyCert, revoking, a0, a1, a2, Out.ok_bind] at h
  cases g0 : e.files kname with
  | none => rw [g0] at h; exact absurd h (by simp [ends_failed])
  | some kf =>
  simp only [g0, ends_bind] at h
  obtain ⟨c, -, h⟩ := h
  cases c with
  | none => exact absurd h (by simp [ends_failed])
  | some c =>
  simp only [ends_bind] at h
  obtain ⟨hh, -, h⟩ := h
  cases g1 : hashNumbers.lookup hh with
  | none => rw [g1] at h; exact absurd h (by simp [ends_failed])
  | some hash =>
  simp only [g1, ends_bind, Prod.exists, ends_if] at h
  obtain ⟨hs, pri, h1, cert, h2, h3, -⟩ := h
  refine ⟨kf, hs, pri, c, hash, cert, rfl, h1, h2, ?_⟩
  simpa using h3

/-- The name that `encrypt-sym` and `encrypt-pka` document for the third way of compressing is refused by both. -/
theorem C56_bzip2_name_fails (e : Env E) (m : Module) (hm : m = Commands.encryptSym e ∨ m = Commands.encryptPka e) (l : Line) (hl : l.fits m.opts m.flags)
    (hd : [45, 45] ∉ l.verbatim.getD []) (hw : 2 ≤ l.words.length) (hc : (l.values (ascii "-c")).getLast? = some (ascii "BZIP2")) :
    main (ordered e) (m.name :: l.spell) = .ok ⟨-1, []⟩ := by
  have hz : compNumbers.lookup (ascii "BZIP2") = none := by decide +kernel
  rcases hm with rfl | rfl
  · obtain ⟨p, ht, hr⟩ := C56_command e (Commands.encryptSym e) (by simp [ordered]) l hl hd hw
    have a0 : p.arg "-c" = .ok (ascii "BZIP2") := by
      have := ht.opt (ascii "-c") (ascii "ZLIB") (show List.lookup _ [_, _, _, _, _, _] = _ by decide +kernel)
      rw [hc] at this; exact arg_ok this
    have a1 : p.arg "file" = .ok l.words[0] := arg_ok ((ht.word 0 (show 0 < 2 by decide)).trans (List.getElem?_eq_getElem _))
    have a2 : p.arg "--sym" = .ok _ := arg_ok (ht.opt (ascii "--sym") (ascii "AES256") (show List.lookup _ [_, _, _, _, _, _] = _ by decide +kernel))
    have a3 : p.arg "--khash" = .ok _ := arg_ok (ht.opt (ascii "--khash") (ascii "SHA1") (show List.lookup _ [_, _, _, _, _, _] = _ by decide +kernel))
    have a4 : p.arg "--shash" = .ok _ := arg_ok (ht.opt (ascii "--shash") (ascii "SHA1") (show List.lookup _ [_, _, _, _, _, _] = _ by decide +kernel))
    refine (hr _).mpr ⟨-1, [], ?_, by simp⟩
    simp only [Commands.encryptSym, a0, a1, a2, a3, a4, Out.ok_bind, hz]
    split <;> rfl
  · obtain ⟨p, ht, hr⟩ := C56_command e (Commands.encryptPka e) (by simp [ordered]) l hl hd hw
    have a0 : p.arg "-c" = .ok (ascii "BZIP2") := by
      have := ht.opt (ascii "-c") (ascii "ZLIB") (show List.lookup _ [_, _, _, _, _] = _ by decide +kernel)
      rw [hc] at this; exact arg_ok this
    have a1 : p.arg "public-key" = .ok l.words[0] := arg_ok ((ht.word 0 (show 0 < 2 by decide)).trans (List.getElem?_eq_getElem _))
    have a2 : p.arg "file" = .ok l.words[1] := arg_ok ((ht.word 1 (show 1 < 2 by decide)).trans (List.getElem?_eq_getElem _))
    have a3 : p.arg "--sym" = .ok _ := arg_ok (ht.opt (ascii "--sym") (ascii "AES256") (show List.lookup _ [_, _, _, _, _] = _ by decide +kernel))
    have a4 : p.arg "-h" = .ok _ := arg_ok (ht.opt (ascii "-h") (ascii "SHA1") (show List.lookup _ [_, _, _, _, _] = _ by decide +kernel))
    refine (hr _).mpr ⟨-1, [], ?_, by simp⟩
    simp only [Commands.encryptPka, a0, a1, a2, a3, a4, Out.ok_bind, hz]
    repeat' split
    all_goals first | rfl | simp_all

/-! ## Binary output -/

/-- Packets followed by something else: they are read, then the rest. -/
private theorem placed_then (n : Nat) (ps : List (Pkt (SigAt n))) : ∀ (off : Nat), placed n off ps →
    ∃ out, writeRaw (Pkt.write (rawAt n)) ps = .ok out ∧ ps.length ≤ out.length ∧
      ∀ (data rest : Bytes) (fuel : Nat), off ≤ data.length → data.drop off = out ++ rest → ps.length < fuel →
        readRawLoop (Pkt.parse (readSigAt n)) data fuel off =
          (do let qs ← readRawLoop (Pkt.parse (readSigAt n)) data (fuel - ps.length) (off + out.length); return ps ++ qs) := by
  induction ps with
  | nil =>
    intro off _
    refine ⟨[], rfl, by simp, ?_⟩
    intro data rest fuel _ hd hf
    simp only [List.length_nil, Nat.sub_zero, Nat.add_zero, List.nil_append]
    cases readRawLoop (Pkt.parse (readSigAt n)) data fuel off <;> rfl
  | cons p ps ih =>
    intro off h
    obtain ⟨r, hraw, hr, hpart, hok, hps⟩ := h
    obtain ⟨out, hw, hlen, hread⟩ := ih _ hps
    have hpos : 0 < (packetOctets p.fmt p.body.tag r).length := List.length_pos_iff.mpr (packetOctets_ne_nil _ _ _)
    refine ⟨packetOctets p.fmt p.body.tag r ++ out, ?_, ?_, ?_⟩
    · rw [writeRaw, Pkt.write, hraw, Out.ok_bind, hpart, writePacket_eq _ _ _ hr.1, Out.ok_bind, hw]
      rfl
    · rw [List.length_append, List.length_cons]; omega
    · intro data rest fuel hl hd hf
      rw [List.append_assoc] at hd
      cases fuel with
      | zero => simp at hf
      | succ fuel =>
        obtain ⟨ctb, start, h1, h2, h3, h4, h5, h6⟩ := frame_at hd hr.1 hr.2.2
        have hlt : off < data.length := by
          have := congrArg List.length hd
          rw [List.length_drop, List.length_append] at this
          omega
        have hstart : start = off + ((packetOctets p.fmt p.body.tag r).length - r.length) := by omega
        rw [← hstart] at hok
        have hparse := Body.parse_at hok hraw h4 h5
        have hl' := le_of_drop hl hd
        have hrest := hread data rest fuel hl' (drop_add_of hd) (by simpa using hf)
        rw [readRawLoop, if_pos hlt]
        simp only [readPacket, h1, Out.ok_bind, h2, Bool.false_and, Bool.false_eq_true, if_false, hr.2.1, Bool.not_true,
          Pkt.parse, hparse, Out.pure_eq, hrest]
        obtain ⟨fmt, part, body⟩ := p
        simp only at hpart
        rw [hpart, List.length_append, List.length_cons, Nat.add_assoc, show fuel + 1 - (ps.length + 1) = fuel - ps.length by omega]
        cases readRawLoop (Pkt.parse (readSigAt n)) data (fuel - ps.length) _ <;> rfl

/-- Octets of packets with a line feed behind them are refused. -/
theorem C56_line_feed (n : Nat) (ps : List (Pkt (SigAt n))) (h : placed n 0 ps) (d : Bytes) (hw : writeRaw (Pkt.write (rawAt n)) ps = .ok d) :
    readRaw (Pkt.parse (readSigAt n)) (d ++ [10]) = .throw := by
  obtain ⟨out, hw', hlen, hread⟩ := placed_then n ps 0 h
  obtain rfl : d = out := Out.ok.inj (hw.symm.trans hw')
  rw [readRaw, hread (d ++ [10]) [10] _ (by omega) (by simp) (by rw [List.length_append]; simp; omega)]
  have : readRawLoop (Pkt.parse (readSigAt n)) (d ++ [10]) ((d ++ [10]).length + 1 - ps.length) (0 + d.length) = .throw := by
    obtain ⟨f, hf⟩ : ∃ f, (d ++ [10]).length + 1 - ps.length = f + 1 := ⟨(d ++ [10]).length - ps.length, by rw [List.length_append]; simp; omega⟩
    rw [hf, readRawLoop, if_pos (by simp)]
    have hc : charAt (d ++ [10]) (0 + d.length) = .ok 10 := by
      rw [charAt, dif_pos (by simp)]
      simp
    rw [readPacket, readPacketHeader, hc]
    rfl
  rw [this]
  rfl

/-- Every command that prints an object with the flag against armor writes a line feed behind the octets: what it prints cannot be read. -/
theorem C56_binary_fails (n : Nat) (o : PgpObj (Pkt (SigAt n))) (h : placed n 0 o.packets) (t : Bytes) (hw : writeObj (rawAt n) o .no = .ok t)
    (hl : ∀ l ∈ getlines (t ++ [10]), ¬ ascii "-----BEGIN PGP " <+: rtrim l) :
    printed t = .ok ⟨0, t ++ [10]⟩ ∧ pgpRead (Pkt.parse (readSigAt n)) .fresh (t ++ [10]) = .throw ∧
      keyOf (readSigAt n) (t ++ [10]) = .throw ∧ detachedFrom (readSigAt n) (t ++ [10]) = .throw := by
  obtain ⟨d, h1, h2⟩ := Out.bind_eq_ok.mp hw
  obtain rfl : d = t := Out.ok.inj (by simpa [pgpWrite] using h2)
  have eb : armorBegin = ascii "-----BEGIN PGP " := by decide
  have hr : pgpRead (Pkt.parse (readSigAt n)) .fresh (d ++ [10]) = .throw := by
    rw [pgpRead, findBegin_none (by rw [eb]; exact hl)]
    simp only [C56_line_feed n o.packets h d h1]
    rfl
  exact ⟨rfl, hr, by rw [keyOf, hr]; rfl, by rw [detachedFrom, hr]; rfl⟩

/-! ## Examples -/

private theorem demo_verify (name sf : Bytes) (v : Verdict) (hf : demo.files name = some sf) (hn : name ≠ [45, 45]) (he : v ≠ .error)
    (hv : (detachedFrom demo.readE sf >>= verifyDetached demo.cr demo.rawE demoPub [1, 2, 3]) = .ok v) :
    main (ordered demo) [ascii "verify-detached-signature", ascii "pub", ascii "doc", name] =
      .ok ⟨0, wording (ascii "File \"" ++ ascii "doc" ++ ascii "\" was") (byKey (ascii "pub") (List.replicate 8 23)) v⟩ := by
  have hl : (plainLine [ascii "pub", ascii "doc", name]).fits (verifyDetachedSignature demo).opts (verifyDetachedSignature demo).flags :=
    plainLine_fits _ _ _ (by
      intro w hw
      simp only [List.mem_cons, List.not_mem_nil, or_false] at hw
      rcases hw with rfl | rfl | rfl
      · exact ⟨by simp [verifyDetachedSignature], by simp [verifyDetachedSignature], by decide +kernel⟩
      · exact ⟨by simp [verifyDetachedSignature], by simp [verifyDetachedSignature], by decide +kernel⟩
      · exact ⟨by simp [verifyDetachedSignature], by simp [verifyDetachedSignature], hn⟩)
  have h := C56_verify_detached demo _ hl (by simp [plainLine]) (ascii "pub") (ascii "doc") name (by rw [plainLine_words]; rfl)
  rw [plainLine_spell] at h
  obtain ⟨s, h1, h2⟩ := Out.bind_eq_ok.mp hv
  exact (h _).mpr ⟨_, _, sf, [], demoPub, s, v, List.replicate 8 23, demo_pub.1, (by decide +kernel : demo.files (ascii "doc") = some [1, 2, 3]), hf,
    demo_pub.2, h1, h2, he, by decide +kernel, rfl⟩

/-- A good signature. -/
example : main (ordered demo) [ascii "verify-detached-signature", ascii "pub", ascii "doc", ascii "sig"] =
    .ok ⟨0, ascii "File \"doc\" was signed by \"pub\" (1717171717171717).\n"⟩ :=
  demo_verify (ascii "sig") demoSigFile .yes (by decide +kernel) (by decide +kernel) (by decide) (by decide +kernel)

/-- A forged one. The status is 0 as well. -/
example : main (ordered demo) [ascii "verify-detached-signature", ascii "pub", ascii "doc", ascii "forged"] =
    .ok ⟨0, ascii "File \"doc\" was not signed by \"pub\" (1717171717171717).\n"⟩ :=
  demo_verify (ascii "forged") demoForgedFile .no (by decide +kernel) (by decide +kernel) (by decide) (by decide +kernel)

/-- The fingerprint in groups of seven octets: `fingerprint -g 7 -s " " pub`. -/
example : ∃ out gs fp, main (ordered demo) [ascii "fingerprint", ascii "-g", ascii "7", ascii "-s", ascii " ", ascii "pub"] = .ok ⟨0, out ++ [10]⟩ ∧
    c37Pub.fingerprint demoCrypto = .ok fp ∧ InGroups 7 fp gs ∧ gs.map List.length = [7, 7, 6] ∧ out = (ascii " ").intercalate (gs.map fun g => hexlify g) := by
  have hl : (Line.mk [.opt (ascii "-g") (ascii "7"), .opt (ascii "-s") (ascii " "), .word (ascii "pub")] none).fits (fingerprint demo).opts (fingerprint demo).flags := by
    intro i hi
    simp only [List.mem_cons, List.not_mem_nil, or_false] at hi
    rcases hi with rfl | rfl | rfl <;> simp only [Item.fits, fingerprint] <;> decide +kernel
  obtain ⟨out, h1, -, h3⟩ := C56_fingerprint demo _ hl (by simp) (ascii "pub") (by decide +kernel) demoPubFile demo_pub.1 7 (by decide +kernel) [] demoPub demo_pub.2
    _ _ rfl c37Pub rfl (List.replicate 20 23) (by decide +kernel) (by decide)
  obtain ⟨gs, hg, ho⟩ := h3 (by decide)
  refine ⟨out, gs, List.replicate 20 23, h1, by decide +kernel, hg, ?_, ho.trans (congrArg (fun s => List.intercalate s (gs.map fun g => hexlify g)) (by decide +kernel))⟩
  obtain ⟨ha, hf, hl⟩ := hg
  have e := congrArg List.length ha
  rw [List.length_flatten, List.length_replicate] at e
  match gs, hf, hl, e with
  | [a], hf, hl, e => simp at hl e; omega
  | [a, b], hf, hl, e => simp at hf hl e; omega
  | [a, b, c], hf, hl, e => simp at hf hl e ⊢; omega
  | [a, b, c, d], hf, hl, e => simp at hf hl e; omega
  | a :: b :: c :: d :: x :: r, hf, hl, e =>
    have h1 := hf a (by simp [List.dropLast])
    have h2 := hf b (by simp [List.dropLast])
    have h3 := hf c (by simp [List.dropLast])
    simp only [List.map_cons, List.sum_cons] at e
    omega

/-- `C56_bzip2_name_fails`: `encrypt-sym -c BZIP2 doc secret`. -/
example : main (ordered demo) [ascii "encrypt-sym", ascii "-c", ascii "BZIP2", ascii "doc", ascii "secret"] = .ok ⟨-1, []⟩ := by
  have hl : (Line.mk [.opt (ascii "-c") (ascii "BZIP2"), .word (ascii "doc"), .word (ascii "secret")] none).fits (Commands.encryptSym demo).opts
      (Commands.encryptSym demo).flags := by
    intro i hi
    simp only [List.mem_cons, List.not_mem_nil, or_false] at hi
    rcases hi with rfl | rfl | rfl <;> simp only [Item.fits, Commands.encryptSym] <;> decide +kernel
  exact C56_bzip2_name_fails demo _ (Or.inl rfl) _ hl (by simp) (by decide +kernel) (by decide +kernel)

/-- `C56_revoke_key_cert_fails` and `C56_sign_subkey_fails` are about commands that run: with these files the library makes a certificate
with a revocation in it. -/
example : (match revokeKeyCert demo.cr demo.rawE ⟨demoSec, [], demoSec, 0, [], 4, 2⟩ demo.now demo.nonces with
    | .ok cert => (revocationPacket cert).isSome
    | _ => false) = true := by decide +kernel

/-- The hypotheses of `C56_binary_fails` hold for a packet. -/
example : placed 0 0 [(⟨.new, false, .userId [97]⟩ : Pkt (SigAt 0))] ∧
    (∀ l ∈ getlines ([205, 1, 97] ++ [10]), ¬ ascii "-----BEGIN PGP " <+: rtrim l) := by
  refine ⟨⟨_, rfl, ⟨by simp [validTag, Body.tag], rfl, ?_⟩, rfl, trivial, trivial⟩, by decide +kernel⟩
  exact ⟨by decide, by decide⟩

end OpenPGP.Cli
