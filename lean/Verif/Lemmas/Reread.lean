import Verif.Model.Reread
import Verif.Spec.Reread

/-! # Readers working on an object against readers of new objects -/
namespace OpenPGP
open Into

namespace Into
variable {σ τ α β : Type}

theorem bind_run (x : Into σ α) (f : α → Into σ β) (s : σ) : (x >>= f) s = match x s with
    | (.ok a, s) => f a s
    | (.throw, s) => (.throw, s)
    | (.ub, s) => (.ub, s)
    | (.diverge, s) => (.diverge, s) := rfl
theorem pure_run (a : α) (s : σ) : (pure a : Into σ α) s = (.ok a, s) := rfl
theorem eval_run (x : Out α) (s : σ) : eval x s = (x, s) := rfl
theorem assign_ok (a : α) (f : α → σ → σ) (s : σ) : assign (.ok a) f s = (.ok a, f a s) := rfl
theorem assign_throw (f : α → σ → σ) (s : σ) : assign .throw f s = (.throw, s) := rfl
theorem assign_ub (f : α → σ → σ) (s : σ) : assign .ub f s = (.ub, s) := rfl
theorem assign_diverge (f : α → σ → σ) (s : σ) : assign .diverge f s = (.diverge, s) := rfl
theorem on_run (get : σ → τ) (set : τ → σ → σ) (x : Into τ α) (s : σ) :
    on get set x s = ((x (get s)).1, set (x (get s)).2 s) := rfl

/-- The two readers end the same way, and the object then holds `m old new`. -/
def Agrees (x : Into σ β) (y : Out (α × β)) (m : σ → α → σ) : Prop :=
  ∀ s, (x s).1 = Prod.snd <$> y ∧ ∀ a b, y = .ok (a, b) → (x s).2 = m s a

theorem Agrees.run {x : Into σ β} {y : Out (α × β)} {m : σ → α → σ} (h : Agrees x y m) (s : σ) {a : α} {b : β}
    (e : y = .ok (a, b)) : x s = (.ok b, m s a) := by
  obtain ⟨h1, h2⟩ := h s
  rw [e] at h1
  exact Prod.ext h1 (h2 a b e)

theorem Agrees.fails {x : Into σ β} {y : Out (α × β)} {m : σ → α → σ} (h : Agrees x y m) (s : σ) :
    (y = .throw → (x s).1 = .throw) ∧ (y = .ub → (x s).1 = .ub) ∧ (y = .diverge → (x s).1 = .diverge) := by
  obtain ⟨h1, -⟩ := h s
  refine ⟨?_, ?_, ?_⟩ <;> (rintro e; rw [h1, e]; rfl)

end Into

theorem pushMPIs_agrees (data : Bytes) : ∀ n pos, Agrees (pushMPIs data n pos) (readMPIs data n pos) (· ++ ·) := by
  intro n
  induction n with
  | zero =>
    intro pos s
    refine ⟨rfl, fun a b h => ?_⟩
    obtain ⟨rfl, rfl⟩ := Prod.mk.inj (Out.ok.inj h)
    simp [pushMPIs, Into.pure_run]
  | succ n ih =>
    intro pos s
    simp only [pushMPIs, readMPIs, Into.bind_run]
    cases hr : readMPI data pos with
    | ok r =>
      obtain ⟨v, p⟩ := r
      rw [assign_ok]
      obtain ⟨h1, h2⟩ := ih p (s ++ [v])
      simp only [Out.ok_bind]
      cases hl : readMPIs data n p with
      | ok l =>
        obtain ⟨l, q⟩ := l
        refine ⟨by rw [h1, hl]; rfl, fun a b h => ?_⟩
        obtain ⟨rfl, rfl⟩ := Prod.mk.inj (Out.ok.inj h)
        rw [h2 _ _ hl]; simp
      | _ => refine ⟨by rw [h1, hl]; rfl, fun a b h => by simp at h⟩
    | _ => exact ⟨rfl, fun a b h => by simp at h⟩

theorem pushUntil_agrees {α : Type} (item : Nat → Out (α × Nat)) (stop : Nat) : ∀ fuel pos,
    Agrees (pushUntil item stop fuel pos) (untilLoop item stop fuel pos) (· ++ ·) := by
  intro n
  induction n with
  | zero => exact fun pos s => ⟨rfl, fun a b h => by simp [untilLoop] at h⟩
  | succ n ih =>
    intro pos s
    simp only [pushUntil, untilLoop]
    split_ifs with hp
    · rw [Into.bind_run]
      cases hr : item pos with
      | ok r =>
        obtain ⟨v, p⟩ := r
        rw [assign_ok]
        obtain ⟨h1, h2⟩ := ih p (s ++ [v])
        simp only [Out.ok_bind]
        cases hl : untilLoop item stop n p with
        | ok l =>
          obtain ⟨l, q⟩ := l
          refine ⟨by rw [h1, hl]; rfl, fun a b h => ?_⟩
          obtain ⟨rfl, rfl⟩ := Prod.mk.inj (Out.ok.inj h)
          rw [h2 _ _ hl]; simp
        | _ => refine ⟨by rw [h1, hl]; rfl, fun a b h => by simp at h⟩
      | _ => exact ⟨rfl, fun a b h => by simp at h⟩
    · refine ⟨rfl, fun a b h => ?_⟩
      obtain ⟨rfl, rfl⟩ := Prod.mk.inj (Out.ok.inj h)
      simp [Into.pure_run]

theorem readSubpackets_until {E : Type} (readE : Bytes → Out E) (data : Bytes) : ∀ fuel pos,
    readSubpacketsLoop readE data fuel pos = Prod.fst <$> untilLoop (readSubItem readE data) data.length fuel pos := by
  intro n
  induction n with
  | zero => exact fun _ => rfl
  | succ n ih =>
    intro pos
    simp only [readSubpacketsLoop, untilLoop]
    split_ifs with hp
    · simp only [readSubItem]
      cases readSubLength data pos with
      | ok r =>
        simp only [Out.ok_bind]
        cases charAt data r.2 with
        | ok c =>
          simp only [Out.ok_bind]
          cases SubBody.default (E := E) (c &&& 0x7f).toNat with
          | none => rfl
          | some f =>
            cases substr data (r.2 + 1) (subSz r.1 1) with
            | ok d =>
              simp only [Out.ok_bind]
              cases SubBody.read readE f d with
              | ok b =>
                simp only [Out.ok_bind, Out.pure_eq, ih]
                cases untilLoop (readSubItem readE data) data.length n (r.2 + r.1) <;> rfl
              | _ => rfl
            | _ => rfl
        | _ => rfl
      | _ => rfl
    · rfl

theorem subpacketsInto_agrees {E : Type} (readE : Bytes → Out E) (data : Bytes) (s : List (Sub E)) :
    match readSubpackets readE data with
    | .ok l => ∃ p, subpacketsInto readE data s = (.ok p, l)
    | .throw => (subpacketsInto readE data s).1 = .throw
    | .ub => (subpacketsInto readE data s).1 = .ub
    | .diverge => (subpacketsInto readE data s).1 = .diverge := by
  have h := pushUntil_agrees (readSubItem readE data) data.length (data.length + 1) 0
  have e : subpacketsInto readE data s = pushUntil (readSubItem readE data) data.length (data.length + 1) 0 [] := rfl
  rw [readSubpackets, readSubpackets_until, e]
  cases hu : untilLoop (readSubItem readE data) data.length (data.length + 1) 0 with
  | ok r => exact ⟨r.2, by rw [h.run [] (a := r.1) (b := r.2) hu]; simp⟩
  | _ => exact by have := h.fails []; simp_all

theorem s2kInto_agrees (data : Bytes) (pos : Nat) : Agrees (s2kInto data pos) (S2K.read data pos) (fun _ new => some new) := by
  intro s
  simp only [s2kInto, S2K.read, Into.bind_run, eval_run]
  cases charAt data pos with
  | ok t =>
    simp only [Out.ok_bind]
    split_ifs
    · simp only [Into.bind_run]
      cases charAt data (pos + 1) with
      | ok h => simp [assign_ok, Into.pure_run]
      | _ => exact ⟨rfl, fun a b h => by simp at h⟩
    · simp only [Into.bind_run, saltInto]
      cases charAt data (pos + 1) with
      | ok h =>
        simp only [assign_ok, Out.ok_bind]
        cases S2K.readSalt data (pos + 2) with
        | ok salt => simp [assign_ok, Into.pure_run]
        | _ => exact ⟨rfl, fun a b h => by simp at h⟩
      | _ => exact ⟨rfl, fun a b h => by simp at h⟩
    · simp only [Into.bind_run, saltInto]
      cases charAt data (pos + 1) with
      | ok h =>
        simp only [assign_ok, Out.ok_bind]
        cases S2K.readSalt data (pos + 2) with
        | ok salt =>
          simp only [assign_ok, Out.ok_bind]
          cases charAt data (pos + 10) with
          | ok c => simp [assign_ok, Into.pure_run]
          | _ => exact ⟨rfl, fun a b h => by simp at h⟩
        | _ => exact ⟨rfl, fun a b h => by simp at h⟩
      | _ => exact ⟨rfl, fun a b h => by simp at h⟩
    · exact ⟨rfl, fun a b h => by simp at h⟩
  | _ => exact ⟨rfl, fun a b h => by simp at h⟩


/-- Case distinction on one expression; the failures are dismissed. -/
local macro "value" e:term "as" x:ident : tactic =>
  `(tactic| (cases hx : $e
             case throw => exact ⟨rfl, fun a b h => by simp at h⟩
             case ub => exact ⟨rfl, fun a b h => by simp at h⟩
             case diverge => exact ⟨rfl, fun a b h => by simp at h⟩
             rename_i $x:ident hx
             simp only [assign_ok, eval_run, Out.ok_bind]))

theorem Tag1.readInto_agrees (data : Bytes) (pos length : Nat) :
    Agrees (Tag1.readInto data pos length) (Tag1.actualRead data pos length) (fun old new => { new with mpi := old.mpi ++ new.mpi }) := by
  intro s
  simp only [Tag1.readInto, Tag1.actualRead, Into.bind_run]
  value charAt data pos as v
  value substr data (pos + 1) 8 as k
  value charAt data (pos + 9) as p
  have h := pushUntil_agrees (readMPI data) length (length + 1) (pos + 10)
  rw [on_run]
  cases hu : untilLoop (readMPI data) length (length + 1) (pos + 10) with
  | ok r =>
    rw [h.run _ (a := r.1) (b := r.2) hu]
    refine ⟨rfl, fun a b e => ?_⟩
    obtain ⟨rfl, rfl⟩ := Prod.mk.inj (Out.ok.inj e)
    rfl
  | _ => exact ⟨by have := h.fails s.mpi; simp_all, fun a b h => by simp at h⟩

theorem Tag3.readInto_agrees (data : Bytes) (pos length : Nat) :
    Agrees (Tag3.readInto data pos length) (Tag3.actualRead data pos length)
      (fun old new => { new with esk := match new.esk with | some e => some e | none => old.esk }) := by
  intro s
  simp only [Tag3.readInto, Tag3.actualRead, Into.bind_run]
  value charAt data pos as v
  value charAt data (pos + 1) as x
  have h := s2kInto_agrees data (pos + 2)
  rw [on_run]
  cases hu : S2K.read data (pos + 2) with
  | ok r =>
    rw [h.run _ (a := r.1) (b := r.2) hu]
    simp only [Out.ok_bind, Tag3.readEsk]
    split_ifs with hp
    · simp only [Into.bind_run]
      value substr data r.2 (pos + length - r.2) as e
      refine ⟨rfl, fun a b e => ?_⟩
      obtain ⟨rfl, rfl⟩ := Prod.mk.inj (Out.ok.inj e)
      rfl
    · refine ⟨rfl, fun a b e => ?_⟩
      obtain ⟨rfl, rfl⟩ := Prod.mk.inj (Out.ok.inj e)
      rfl
  | throw => rw [(h.fails _).1 hu]; exact ⟨rfl, fun a b h => by simp at h⟩
  | ub => rw [(h.fails _).2.1 hu]; exact ⟨rfl, fun a b h => by simp at h⟩
  | diverge => rw [(h.fails _).2.2 hu]; exact ⟨rfl, fun a b h => by simp at h⟩

theorem Tag4.readInto_agrees (data : Bytes) (pos length : Nat) :
    Agrees (Tag4.readInto data pos length) (Tag4.actualRead data pos length) (fun _ new => new) := by
  intro s
  simp only [Tag4.readInto, Tag4.actualRead, Into.bind_run]
  value charAt data pos as v
  value charAt data (pos + 1) as t
  value charAt data (pos + 2) as h
  value charAt data (pos + 3) as p
  value substr data (pos + 4) 8 as k
  value Tag4.checkKeyid k as k
  value charAt data (pos + 12) as l
  refine ⟨rfl, fun a b e => ?_⟩
  obtain ⟨rfl, rfl⟩ := Prod.mk.inj (Out.ok.inj e)
  rfl

theorem KeyPkt.readInto_agrees (data : Bytes) (pos : Nat) :
    Agrees (KeyPkt.readInto data pos) (KeyPkt.readCommon data pos) Spec.keyAfter := by
  intro s
  simp only [KeyPkt.readInto, KeyPkt.readCommon, Into.bind_run]
  value charAt data pos as v
  value substr data (pos + 1) 4 as t
  split_ifs with h3 h4
  · simp only [Into.bind_run]
    value charAt data (pos + 5) as a
    value charAt data (pos + 6) as b
    value charAt data (pos + 7) as p
    have h := pushMPIs_agrees data 2 (pos + 8)
    rw [on_run]
    cases hu : readMPIs data 2 (pos + 8) with
    | ok r =>
      rw [h.run _ (a := r.1) (b := r.2) hu]
      refine ⟨rfl, fun a b e => ?_⟩
      obtain ⟨rfl, rfl⟩ := Prod.mk.inj (Out.ok.inj e)
      have : ¬ (4 < v) := fun h => absurd (UInt8.lt_trans h3 h) (by simp)
      simp [Spec.keyAfter, h3, this]
    | _ => exact ⟨by have := h.fails s.mpi; simp_all, fun a b h => by simp at h⟩
  · simp only [Into.bind_run]
    value charAt data (pos + 5) as p
    cases KeyPkt.mpiCount p with
    | none => exact ⟨rfl, fun a b h => by simp at h⟩
    | some n =>
      have h := pushMPIs_agrees data n (pos + 6)
      simp only
      rw [on_run]
      cases hu : readMPIs data n (pos + 6) with
      | ok r =>
        rw [h.run _ (a := r.1) (b := r.2) hu]
        refine ⟨rfl, fun a b e => ?_⟩
        obtain ⟨rfl, rfl⟩ := Prod.mk.inj (Out.ok.inj e)
        simp [Spec.keyAfter, h4]
      | _ => exact ⟨by have := h.fails s.mpi; simp_all, fun a b h => by simp at h⟩
  · refine ⟨rfl, fun a b e => ?_⟩
    obtain ⟨rfl, rfl⟩ := Prod.mk.inj (Out.ok.inj e)
    have : 4 < v := by
      simp only [UInt8.lt_iff_toNat_lt, ← UInt8.toNat_inj] at *
      simp at *; omega
    simp [Spec.keyAfter, h3, this, Into.pure_run]

theorem Tag5.readInto_agrees (data : Bytes) (pos length : Nat) :
    Agrees (Tag5.readInto data pos length) (Tag5.actualRead data pos length) Spec.secretAfter := by
  intro s
  simp only [Tag5.readInto, Tag5.actualRead, Into.bind_run]
  have hk := KeyPkt.readInto_agrees data pos
  rw [on_run]
  cases hu : KeyPkt.readCommon data pos with
  | ok r =>
    rw [hk.run _ (a := r.1) (b := r.2) hu]
    simp only [Out.ok_bind]
    value charAt data r.2 as c
    simp only [Tag5.readProtection]
    by_cases h2 : Tag5.hasS2K c = true
    · simp only [h2, if_true, Into.bind_run]
      value charAt data (r.2 + 1) as sym
      have h := s2kInto_agrees data (r.2 + 1 + 1)
      rw [on_run]
      cases hs : S2K.read data (r.2 + 1 + 1) with
      | ok k =>
        rw [h.run _ (a := k.1) (b := k.2) hs]
        have h0 : c ≠ 0 := by rintro rfl; simp [Tag5.hasS2K] at h2
        have h2' : c = 254 ∨ c = 255 := by simpa [Tag5.hasS2K] using h2
        simp only [Into.pure_run, Out.ok_bind, Out.pure_eq, Tag5.readIV, h0, ne_eq, not_false_iff, if_true, Into.bind_run]
        value mapAt (blockLen sym) as bs
        value substr data k.2 bs as iv
        value substr data (k.2 + iv.length) (subSz length (k.2 + iv.length - pos)) as sec
        refine ⟨rfl, fun a b e => ?_⟩
        obtain ⟨rfl, rfl⟩ := Prod.mk.inj (Out.ok.inj e)
        simp [Spec.secretAfter, h0, h2']
      | throw => rw [(h.fails _).1 hs]; exact ⟨rfl, fun a b h => by simp at h⟩
      | ub => rw [(h.fails _).2.1 hs]; exact ⟨rfl, fun a b h => by simp at h⟩
      | diverge => rw [(h.fails _).2.2 hs]; exact ⟨rfl, fun a b h => by simp at h⟩
    · have h2' : ¬ (c = 254 ∨ c = 255) := by simpa [Tag5.hasS2K] using h2
      have h2 : Tag5.hasS2K c = false := by simpa using h2
      by_cases h0 : c = 0
      · subst h0
        simp only [h2, Bool.false_eq_true, if_false, Into.pure_run, Out.ok_bind, Out.pure_eq, Tag5.readIV, ne_eq, not_true, List.length_nil, Nat.add_zero]
        value substr data (r.2 + 1) (subSz length (r.2 + 1 - pos)) as sec
        refine ⟨rfl, fun a b e => ?_⟩
        obtain ⟨rfl, rfl⟩ := Prod.mk.inj (Out.ok.inj e)
        simp [Spec.secretAfter]
      simp only [h2, Bool.false_eq_true, if_false, Into.bind_run, assign_ok, Into.pure_run, Out.ok_bind, Out.pure_eq, Tag5.readIV, h0, ne_eq, not_false_iff, if_true]
      value mapAt (blockLen c) as bs
      value substr data (r.2 + 1) bs as iv
      value substr data (r.2 + 1 + iv.length) (subSz length (r.2 + 1 + iv.length - pos)) as sec
      refine ⟨rfl, fun a b e => ?_⟩
      obtain ⟨rfl, rfl⟩ := Prod.mk.inj (Out.ok.inj e)
      simp [Spec.secretAfter, h0, h2']
  | throw => rw [(hk.fails _).1 hu]; exact ⟨rfl, fun a b h => by simp at h⟩
  | ub => rw [(hk.fails _).2.1 hu]; exact ⟨rfl, fun a b h => by simp at h⟩
  | diverge => rw [(hk.fails _).2.2 hu]; exact ⟨rfl, fun a b h => by simp at h⟩

theorem octetStringInto_agrees (data : Bytes) (pos length : Nat) :
    Agrees (octetStringInto data pos length) (Body.readOctetString data pos length) (fun _ new => new) := by
  intro s
  simp only [octetStringInto, Body.readOctetString, Into.bind_run]
  value charAt data pos as v
  value substr data (pos + 1) (subSz length 1) as k
  refine ⟨rfl, fun a b e => ?_⟩
  obtain ⟨rfl, rfl⟩ := Prod.mk.inj (Out.ok.inj e)
  rfl

theorem stringInto_agrees (data : Bytes) (pos length : Nat) :
    Agrees (stringInto data pos length) (Body.readString data pos length) (fun _ new => new) := by
  intro s
  simp only [stringInto, Body.readString, Into.bind_run]
  value substr data pos length as k
  refine ⟨rfl, fun a b e => ?_⟩
  obtain ⟨rfl, rfl⟩ := Prod.mk.inj (Out.ok.inj e)
  rfl

theorem Tag11.readInto_agrees (data : Bytes) (pos length : Nat) :
    Agrees (Tag11.readInto data pos length) (Tag11.actualRead data pos length) (fun _ new => new) := by
  intro s
  simp only [Tag11.readInto, Tag11.actualRead, Into.bind_run]
  value charAt data pos as f
  value charAt data (pos + 1) as len
  value substr data (pos + 2) len.toNat as n
  value substr data (pos + 2 + len.toNat) 4 as t
  value substr data (pos + 2 + len.toNat + 4) (subSz length (2 + len.toNat + 4)) as l
  refine ⟨rfl, fun a b e => ?_⟩
  obtain ⟨rfl, rfl⟩ := Prod.mk.inj (Out.ok.inj e)
  rfl

theorem Tag2.readInto_agrees {E : Type} (readE : Bytes → Out E) (data : Bytes) (pos length : Nat) :
    Agrees (Tag2.readInto readE data pos length) (Tag2.actualRead readE data pos length) Spec.sigAfter := by
  intro s
  simp only [Tag2.readInto, Tag2.actualRead, Into.bind_run]
  value charAt data pos as v
  split_ifs with h3 h4
  · simp only [Tag2.readV3Into, Tag2.readV3, Into.bind_run]
    value charAt data (pos + 1) as f
    split_ifs with h5
    · exact ⟨rfl, fun a b h => by simp at h⟩
    simp only [Into.bind_run]
    value charAt data (pos + 2) as t
    value substr data (pos + 3) 4 as tm
    value substr data (pos + 7) 8 as k
    split_ifs with hk
    · exact ⟨rfl, fun a b h => by simp at h⟩
    simp only [Into.bind_run, assign_ok]
    value charAt data (pos + 15) as p
    value charAt data (pos + 16) as h
    value substr data (pos + 17) 2 as l
    split_ifs with hr hd
    · have h := pushMPIs_agrees data 1 19
      rw [on_run]
      cases hu : readMPIs data 1 19 with
      | ok r =>
        rw [h.run _ (a := r.1) (b := r.2) hu]
        refine ⟨rfl, fun a b e => ?_⟩
        obtain ⟨rfl, rfl⟩ := Prod.mk.inj (Out.ok.inj e)
        simp [Spec.sigAfter, h3]
      | _ => exact ⟨by have := h.fails s.mpi; simp_all, fun a b h => by simp at h⟩
    · have h := pushMPIs_agrees data 2 19
      rw [on_run]
      cases hu : readMPIs data 2 19 with
      | ok r =>
        rw [h.run _ (a := r.1) (b := r.2) hu]
        refine ⟨rfl, fun a b e => ?_⟩
        obtain ⟨rfl, rfl⟩ := Prod.mk.inj (Out.ok.inj e)
        simp [Spec.sigAfter, h3]
      | _ => exact ⟨by have := h.fails s.mpi; simp_all, fun a b h => by simp at h⟩
    · exact ⟨rfl, fun a b h => by simp at h⟩
  · simp only [Tag2.readV4Into, Tag2.readV4, Into.bind_run]
    value charAt data (pos + 1) as t
    value charAt data (pos + 2) as p
    value charAt data (pos + 3) as h
    value substr data (pos + 4) 2 as h2
    value substr data (pos + 4 + 2) (toint256 h2 % 2 ^ 16) as hs
    rw [on_run]
    have hh := subpacketsInto_agrees readE hs s.hashed
    cases hu : readSubpackets readE hs with
    | ok lh =>
      rw [hu] at hh
      obtain ⟨ph, hh⟩ := hh
      rw [hh]
      simp only [Out.ok_bind]
      value substr data (pos + 4 + 2 + toint256 h2 % 2 ^ 16) 2 as u2
      value substr data (pos + 4 + 2 + toint256 h2 % 2 ^ 16 + 2) (toint256 u2 % 2 ^ 16) as us
      rw [on_run]
      have hq := subpacketsInto_agrees readE us s.unhashed
      cases hv : readSubpackets readE us with
      | ok lu =>
        rw [hv] at hq
        obtain ⟨pu, hq⟩ := hq
        rw [hq]
        simp only [Out.ok_bind]
        value substr data (pos + 4 + 2 + toint256 h2 % 2 ^ 16 + 2 + toint256 u2 % 2 ^ 16) 2 as l
        rw [on_run]
        have hm := pushMPIs_agrees data (if p = 17 then 2 else 1)
          (pos + 4 + 2 + toint256 h2 % 2 ^ 16 + 2 + toint256 u2 % 2 ^ 16 + 2)
        cases hw : readMPIs data (if p = 17 then 2 else 1)
          (pos + 4 + 2 + toint256 h2 % 2 ^ 16 + 2 + toint256 u2 % 2 ^ 16 + 2) with
        | ok r =>
          rw [hm.run _ (a := r.1) (b := r.2) hw]
          refine ⟨rfl, fun a b e => ?_⟩
          obtain ⟨rfl, rfl⟩ := Prod.mk.inj (Out.ok.inj e)
          simp [Spec.sigAfter, h4]
        | _ => exact ⟨by have := hm.fails s.mpi; simp_all, fun a b h => by simp at h⟩
      | _ => rw [hv] at hq; simp only at hq; rw [hq]; exact ⟨rfl, fun a b h => by simp at h⟩
    | _ => rw [hu] at hh; simp only at hh; rw [hh]; exact ⟨rfl, fun a b h => by simp at h⟩
  · exact ⟨rfl, fun a b h => by simp at h⟩

/-- From the reader of a class to `read`. -/
theorem tagInto_agrees {α : Type} {actual : Bytes → Nat → Nat → Into α Nat} {reader : Bytes → Nat → Nat → Out (α × Nat)}
    {m : α → α → α} (h : ∀ d p n, Agrees (actual d p n) (reader d p n) m) (fresh : α) (span : Span) (h0 : span.length ≠ 0) (s : α) :
    match tagRead fresh reader span with
    | .ok new => tagInto actual span s = (.ok (), m s new)
    | .throw => (tagInto actual span s).1 = .throw
    | .ub => (tagInto actual span s).1 = .ub
    | .diverge => (tagInto actual span s).1 = .diverge := by
  have hs := h span.src span.start span.length
  simp only [tagRead, tagInto, h0, if_false, Into.bind_run]
  cases hr : reader span.src span.start span.length with
  | ok r =>
    rw [hs.run s (a := r.1) (b := r.2) hr]
    simp only [Out.ok_bind]
    by_cases hp : r.2 = span.start + span.length
    · simp [hp, Into.pure_run]
    · simp [hp, eval_run]
  | throw =>
    have e := (hs.fails s).1 hr
    rcases hx : actual span.src span.start span.length s with ⟨o, s'⟩
    rw [hx] at e; simp only at e; subst e; rfl
  | ub =>
    have e := (hs.fails s).2.1 hr
    rcases hx : actual span.src span.start span.length s with ⟨o, s'⟩
    rw [hx] at e; simp only at e; subst e; rfl
  | diverge =>
    have e := (hs.fails s).2.2 hr
    rcases hx : actual span.src span.start span.length s with ⟨o, s'⟩
    rw [hx] at e; simp only at e; subst e; rfl

/-! ## What is never lost -/

namespace Into
variable {σ τ α β γ : Type}

/-- However it ends, what `f` sees of the object is a prefix of what it sees afterwards. -/
def Keeps (f : σ → List γ) (x : Into σ α) : Prop := ∀ s, f s <+: f (x s).2

theorem Keeps.bind {f : σ → List γ} {x : Into σ α} {g : α → Into σ β} (hx : Keeps f x) (hg : ∀ a, Keeps f (g a)) :
    Keeps f (x >>= g) := by
  intro s
  have h := hx s
  rw [bind_run]
  rcases hr : x s with ⟨o, s'⟩
  rw [hr] at h
  cases o with
  | ok a => exact h.trans (hg a s')
  | _ => exact h

theorem Keeps.pure {f : σ → List γ} (a : α) : Keeps f (Pure.pure a : Into σ α) := fun _ => List.prefix_rfl
theorem Keeps.eval {f : σ → List γ} (x : Out α) : Keeps f (eval x : Into σ α) := fun _ => List.prefix_rfl
theorem Keeps.assign {f : σ → List γ} (x : Out α) {g : α → σ → σ} (h : ∀ a s, f s <+: f (g a s)) : Keeps f (assign x g) := by
  intro s
  cases x with
  | ok a => exact h a s
  | _ => exact List.prefix_rfl
theorem Keeps.on {f : σ → List γ} {get : σ → τ} {set : τ → σ → σ} (x : Into τ α) (h : ∀ s, f s <+: f (set (x (get s)).2 s)) :
    Keeps f (on get set x) := h
theorem Keeps.ite {f : σ → List γ} {p : Prop} [Decidable p] {x y : Into σ α} (hx : Keeps f x) (hy : Keeps f y) :
    Keeps f (if p then x else y) := by split_ifs; exacts [hx, hy]

end Into

theorem pushMPIs_keeps (data : Bytes) : ∀ n pos, Keeps id (pushMPIs data n pos) := by
  intro n
  induction n with
  | zero => exact fun pos => Keeps.pure _
  | succ n ih => exact fun pos => Keeps.bind (Keeps.assign _ fun r l => ⟨[r.1], rfl⟩) fun r => ih r.2

theorem pushUntil_keeps {α : Type} (item : Nat → Out (α × Nat)) (stop : Nat) : ∀ fuel pos, Keeps id (pushUntil item stop fuel pos) := by
  intro n
  induction n with
  | zero => exact fun pos => Keeps.eval _
  | succ n ih =>
    intro pos
    exact Keeps.ite (Keeps.bind (Keeps.assign _ fun r l => ⟨[r.1], rfl⟩) fun r => ih r.2) (Keeps.pure _)

theorem Tag1.readInto_keeps (data : Bytes) (pos length : Nat) : Keeps Tag1.mpi (Tag1.readInto data pos length) :=
  Keeps.bind (Keeps.assign _ fun _ _ => List.prefix_rfl) fun _ => Keeps.bind (Keeps.assign _ fun _ _ => List.prefix_rfl) fun _ =>
    Keeps.bind (Keeps.assign _ fun _ _ => List.prefix_rfl) fun _ => Keeps.on _ fun s => pushUntil_keeps _ _ _ _ s.mpi

theorem KeyPkt.readInto_keeps (data : Bytes) (pos : Nat) : Keeps KeyPkt.mpi (KeyPkt.readInto data pos) :=
  Keeps.bind (Keeps.assign _ fun _ _ => List.prefix_rfl) fun v => Keeps.bind (Keeps.assign _ fun _ _ => List.prefix_rfl) fun _ =>
    Keeps.ite
      (Keeps.bind (Keeps.eval _) fun _ => Keeps.bind (Keeps.assign _ fun _ _ => List.prefix_rfl) fun _ =>
        Keeps.bind (Keeps.assign _ fun _ _ => List.prefix_rfl) fun _ => Keeps.on _ fun s => pushMPIs_keeps _ _ _ s.mpi)
      (Keeps.ite
        (Keeps.bind (Keeps.assign _ fun _ _ => List.prefix_rfl) fun pka => by
          cases KeyPkt.mpiCount pka with
          | none => exact Keeps.eval _
          | some n => exact Keeps.on _ fun s => pushMPIs_keeps _ _ _ s.mpi)
        (Keeps.pure _))

theorem Tag2.readInto_keeps {E : Type} (readE : Bytes → Out E) (data : Bytes) (pos length : Nat) :
    Keeps Tag2.mpi (Tag2.readInto readE data pos length) := by
  refine Keeps.bind (Keeps.assign _ fun _ _ => List.prefix_rfl) fun v => Keeps.ite ?_ (Keeps.ite ?_ (Keeps.eval _))
  · refine Keeps.bind (Keeps.eval _) fun _ => Keeps.ite (Keeps.eval _) ?_
    refine Keeps.bind (Keeps.assign _ fun _ _ => List.prefix_rfl) fun _ => Keeps.bind (Keeps.assign _ fun _ _ => List.prefix_rfl) fun _ => ?_
    refine Keeps.bind (Keeps.eval _) fun _ => Keeps.ite (Keeps.eval _) ?_
    refine Keeps.bind (Keeps.assign _ fun _ _ => List.prefix_rfl) fun _ => Keeps.bind (Keeps.assign _ fun _ _ => List.prefix_rfl) fun _ => ?_
    refine Keeps.bind (Keeps.assign _ fun _ _ => List.prefix_rfl) fun _ => Keeps.bind (Keeps.assign _ fun _ _ => List.prefix_rfl) fun _ => ?_
    exact Keeps.ite (Keeps.on _ fun s => pushMPIs_keeps _ _ _ s.mpi) (Keeps.ite (Keeps.on _ fun s => pushMPIs_keeps _ _ _ s.mpi) (Keeps.eval _))
  · refine Keeps.bind (Keeps.assign _ fun _ _ => List.prefix_rfl) fun _ => Keeps.bind (Keeps.assign _ fun _ _ => List.prefix_rfl) fun _ => ?_
    refine Keeps.bind (Keeps.assign _ fun _ _ => List.prefix_rfl) fun _ => Keeps.bind (Keeps.eval _) fun _ => Keeps.bind (Keeps.eval _) fun _ => ?_
    refine Keeps.bind (Keeps.on _ fun _ => List.prefix_rfl) fun _ => Keeps.bind (Keeps.eval _) fun _ => Keeps.bind (Keeps.eval _) fun _ => ?_
    refine Keeps.bind (Keeps.on _ fun _ => List.prefix_rfl) fun _ => Keeps.bind (Keeps.assign _ fun _ _ => List.prefix_rfl) fun _ => ?_
    exact Keeps.on _ fun s => pushMPIs_keeps _ _ _ s.mpi

theorem Tag5.readInto_keeps (data : Bytes) (pos length : Nat) : Keeps (fun t => t.key.mpi) (Tag5.readInto data pos length) := by
  refine Keeps.bind (Keeps.on _ fun s => KeyPkt.readInto_keeps _ _ s.key) fun _ => Keeps.bind (Keeps.assign _ fun _ _ => List.prefix_rfl) fun _ => ?_
  refine Keeps.bind (Keeps.ite ?_ (Keeps.ite ?_ (Keeps.pure _))) fun _ => Keeps.bind (Keeps.ite ?_ (Keeps.pure _)) fun _ => ?_
  · exact Keeps.bind (Keeps.assign _ fun _ _ => List.prefix_rfl) fun _ => Keeps.bind (Keeps.assign _ fun _ _ => List.prefix_rfl) fun _ =>
      Keeps.bind (Keeps.on _ fun _ => List.prefix_rfl) fun _ => Keeps.pure _
  · exact Keeps.bind (Keeps.assign _ fun _ _ => List.prefix_rfl) fun _ => Keeps.pure _
  · exact Keeps.bind (Keeps.eval _) fun _ => Keeps.bind (Keeps.assign _ fun _ _ => List.prefix_rfl) fun _ => Keeps.pure _
  · exact Keeps.bind (Keeps.assign _ fun _ _ => List.prefix_rfl) fun _ => Keeps.pure _

theorem tagInto_keeps {σ γ : Type} {f : σ → List γ} {actual : Bytes → Nat → Nat → Into σ Nat} (h : ∀ d p n, Keeps f (actual d p n))
    (span : Span) : Keeps f (tagInto actual span) :=
  Keeps.ite (Keeps.pure _) (Keeps.bind (h _ _ _) fun _ => Keeps.ite (Keeps.eval _) (Keeps.pure _))

end OpenPGP
