import Mathlib.Tactic.IntervalCases
import Verif.Spec.Uuid
import Verif.Proofs.DirRun
import Verif.Props.Vault
/-!
# New names: C72

IDs of new objects and names of new users and groups are version 4 UUIDs, and but for the six bits that RFC 4122 fixes they are what the random
source returned during the call.
-/
namespace D1
open Spec Prog

theorem list16 (u : BytesN 16) : ∃ b0 b1 b2 b3 b4 b5 b6 b7 b8 b9 b10 b11 b12 b13 b14 b15,
    u.1 = [b0, b1, b2, b3, b4, b5, b6, b7, b8, b9, b10, b11, b12, b13, b14, b15] := by
  obtain ⟨u, h⟩ := u
  match u, h with
  | [b0, b1, b2, b3, b4, b5, b6, b7, b8, b9, b10, b11, b12, b13, b14, b15], _ => exact ⟨_, _, _, _, _, _, _, _, _, _, _, _, _, _, _, _, rfl⟩

theorem u8_version : ∀ b : UInt8, ((b &&& 0x0f) ||| 0x40).toNat = 64 + b.toNat % 16 := by
  intro b
  have := (by decide +kernel : ∀ n : Fin 256, ((UInt8.ofNat n.1 &&& 0x0f) ||| 0x40).toNat = 64 + n.1 % 16) ⟨b.toNat, b.toNat_lt⟩
  simpa using this

theorem u8_variant : ∀ b : UInt8, ((b &&& 0x3f) ||| 0x80).toNat = 128 + b.toNat % 64 := by
  intro b
  have := (by decide +kernel : ∀ n : Fin 256, ((UInt8.ofNat n.1 &&& 0x3f) ||| 0x80).toNat = 128 + n.1 % 64) ⟨b.toNat, b.toNat_lt⟩
  simpa using this

theorem mkV4_madeOf (b : BytesN 16) : MadeOf b.1 (mkV4 b).1 := by
  refine ⟨(mkV4 b).2, ?_, ?_, fun i hi h6 h8 => ?_⟩
  · rw [← u8_version]
    simp only [mkV4]
    rw [List.getD_eq_getElem?_getD, List.getElem?_set_ne (by decide), List.getElem?_set_self (by rw [b.2]; decide)]
    rfl
  · rw [← u8_variant]
    simp only [mkV4]
    rw [List.getD_eq_getElem?_getD, List.getElem?_set_self (by rw [List.length_set, b.2]; decide)]
    rfl
  · simp only [mkV4]
    rw [List.getD_eq_getElem?_getD, List.getElem?_set_ne (Ne.symm h8), List.getElem?_set_ne (Ne.symm h6), List.getD_eq_getElem?_getD]

theorem hexDigit_eq : ∀ n, n < 16 → some (hexDigit n) = hexDigits[n]? := by decide

theorem uuidText_textOf (u : Oid) : TextOf u.1 (uuidText u) := by
  obtain ⟨b0, b1, b2, b3, b4, b5, b6, b7, b8, b9, b10, b11, b12, b13, b14, b15, h⟩ := list16 u
  have hlt : ∀ b : UInt8, b.toNat / 16 < 16 ∧ b.toNat % 16 < 16 := fun b => ⟨by have := b.toNat_lt; omega, by omega⟩
  refine ⟨by simp [uuidText, h, hexEnc], fun i hi => ?_, fun i hi => ?_⟩
  · rw [← hexDigit_eq _ (by unfold halfByte; split <;> first | exact (hlt _).1 | exact (hlt _).2)]
    simp only [uuidText, h]
    interval_cases i <;> rfl
  · simp only [uuidText, h]
    rcases hi with rfl | rfl | rfl | rfl <;> rfl

theorem uuidText_length (u : Oid) : (uuidText u).length = 36 := (uuidText_textOf u).len

/-- The name is fixed by the UUID. -/
theorem textOf_unique {u t t' : Bytes} (h : TextOf u t) (h' : TextOf u t') : t = t' := by
  have key : ∀ j, j < 36 → (j = 8 ∨ j = 13 ∨ j = 18 ∨ j = 23) ∨ ∃ i, i < 32 ∧ digitPos i = j := by decide
  apply List.ext_getElem?
  intro j
  by_cases hj : j < 36
  · rcases key j hj with hj | ⟨i, hi, rfl⟩
    · rw [h.hyphens j hj, h'.hyphens j hj]
    · rw [h.digits i hi, h'.digits i hi]
  · rw [List.getElem?_eq_none (by rw [h.len]; omega), List.getElem?_eq_none (by rw [h'.len]; omega)]

theorem hexDigits_inj : ∀ a, a < 16 → ∀ b, b < 16 → hexDigits[a]? = hexDigits[b]? → a = b := by decide

theorem halfByte_lt (u : Bytes) (i : Nat) : halfByte u i < 16 := by
  unfold halfByte
  have := (u.getD (i / 2) 0).toNat_lt
  split <;> omega

/-- The UUID is fixed by the name. -/
theorem textOf_inj {u u' t : Bytes} (hu : u.length = 16) (hu' : u'.length = 16) (h : TextOf u t) (h' : TextOf u' t) : u = u' := by
  apply List.ext_getElem (hu.trans hu'.symm)
  intro i h1 h2
  have hi : i < 16 := by omega
  have e1 := hexDigits_inj _ (halfByte_lt u (2 * i)) _ (halfByte_lt u' (2 * i)) ((h.digits _ (by omega)).symm.trans (h'.digits _ (by omega)))
  have e2 := hexDigits_inj _ (halfByte_lt u (2 * i + 1)) _ (halfByte_lt u' (2 * i + 1))
    ((h.digits _ (by omega)).symm.trans (h'.digits _ (by omega)))
  unfold halfByte at e1 e2
  rw [if_pos (by omega), if_pos (by omega), show 2 * i / 2 = i by omega] at e1
  rw [if_neg (by omega), if_neg (by omega), show (2 * i + 1) / 2 = i by omega] at e2
  simp only [List.getD_eq_getElem?_getD, List.getElem?_eq_getElem h1, List.getElem?_eq_getElem h2, Option.getD_some] at e1 e2
  exact UInt8.toNat_inj.mp (by omega)

theorem run_time {α : Type} (env : Env) (p : Prog α) (w : World) : w.t ≤ (p.run env w).2.t := by
  induction p generalizing w with
  | op e k ih =>
    rw [Prog.run]
    refine Nat.le_trans ?_ (ih _ _)
    simp only [World.exec]
    cases env.fault w.t <;> exact Nat.le_succ _
  | _ => exact Nat.le_refl _

theorem run_newV4_inv {env : Env} {w w' : World} {u : Oid} (h : newV4.run env w = (.ok u, w')) :
    ∃ b, env.rand w.t 16 = some b ∧ u = mkV4 b ∧ w.t < w'.t := by
  rw [newV4, randBytes, Prog.bind_eq, op_bind, Prog.run, exec_rand] at h
  cases hb : env.rand w.t 16 with
  | none => rw [hb] at h; cases h
  | some b =>
    rw [hb] at h
    cases h
    exact ⟨b, rfl, rfl, Nat.lt_succ_self _⟩

/-- An ID made during a call that began in `w` and ended in `w'`. -/
def NewId (env : Env) (w w' : World) (u : Bytes) : Prop :=
  ∃ t b, w.t ≤ t ∧ t < w'.t ∧ env.rand t 16 = some b ∧ MadeOf b.1 u

section
variable {P : Prims} {env : Env} {w w' : World}

theorem newId_between {w1 w2 : World} {u : Oid} {α β : Type} {p : Prog α} {q : Prog β} {a : Outcome α} {o : Outcome β} (h1 : p.run env w = (a, w1))
    (h2 : newV4.run env w1 = (.ok u, w2)) (h3 : q.run env w2 = (o, w')) : NewId env w w' u.1 := by
  obtain ⟨b, hb, rfl, ht⟩ := run_newV4_inv h2
  have t1 := run_time env p w
  have t3 := run_time env q w2
  rw [h1] at t1
  rw [h3] at t3
  exact ⟨w1.t, b, t1, Nat.lt_of_lt_of_le ht t3, hb, mkV4_madeOf b⟩

/-- C72, `Encrypt`: any Identity Provider, IO failures, any state. -/
theorem C72_encrypt {d : D1} {token : GoString} {o : Object} {gs : List GoString} {oid : Oid}
    (h : (d.encrypt P token o gs).run env w = (.ok oid, w')) : NewId env w w' oid.1 := by
  rw [D1.encrypt] at h
  obtain ⟨i, w1, h1, h⟩ := (run_bind_ok_iff env).mp h
  obtain ⟨u, w2, h2, h⟩ := (run_bind_ok_iff env).mp h
  have h3 := h
  obtain ⟨_, _, -, h⟩ := (run_bind_ok_iff env).mp h
  obtain ⟨_, _, -, h⟩ := (run_bind_ok_iff env).mp h
  obtain ⟨_, _, -, h⟩ := (run_bind_ok_iff env).mp h
  obtain ⟨_, _, -, h⟩ := (run_bind_ok_iff env).mp h
  obtain ⟨_, _, -, h⟩ := (run_bind_ok_iff env).mp h
  cases h
  exact newId_between h1 h2 h3

/-- C72, `NewUser`. -/
theorem C72_newUser {s : Standalone} {scs : List Scope} {uid pwd : GoString} (h : (s.newUser P scs).run env w = (.ok (uid, pwd), w')) :
    ∃ u, NewId env w w' u ∧ TextOf u uid := by
  rw [Standalone.newUser] at h
  obtain ⟨u, w2, h2, h⟩ := (run_bind_ok_iff env).mp h
  have h3 := h
  obtain ⟨_, _, -, h⟩ := (run_bind_ok_iff env).mp h
  obtain ⟨_, _, -, h⟩ := (run_bind_ok_iff env).mp h
  cases h
  exact ⟨u.1, newId_between (p := .ret ()) rfl h2 h3, uuidText_textOf u⟩

/-- C72, `NewGroup`. -/
theorem C72_newGroup {s : Standalone} {token : GoString} {scs : List Scope} {gid : GoString}
    (h : (s.newGroup P token scs).run env w = (.ok gid, w')) : ∃ u, NewId env w w' u ∧ TextOf u gid := by
  rw [Standalone.newGroup] at h
  obtain ⟨i, w1, h1, h⟩ := (run_bind_ok_iff env).mp h
  obtain ⟨u, w2, h2, h⟩ := (run_bind_ok_iff env).mp h
  have h3 := h
  obtain ⟨_, _, -, h⟩ := (run_bind_ok_iff env).mp h
  obtain ⟨_, _, -, h⟩ := (run_bind_ok_iff env).mp h
  obtain ⟨_, _, -, h⟩ := (run_bind_ok_iff env).mp h
  obtain ⟨_, _, -, h⟩ := (run_bind_ok_iff env).mp h
  cases h
  exact ⟨u.1, newId_between h1 h2 h3, uuidText_textOf u⟩

end

/-- C72, how often names collide: two names are the same if and only if the draws agree on the 122 bits that RFC 4122 leaves open. -/
theorem C72_collision {b b' u u' t t' : Bytes} (h : MadeOf b u) (h' : MadeOf b' u') (ht : TextOf u t) (ht' : TextOf u' t') :
    (t = t' ↔ u = u') ∧ (u = u' ↔ (b.getD 6 0).toNat % 16 = (b'.getD 6 0).toNat % 16 ∧ (b.getD 8 0).toNat % 64 = (b'.getD 8 0).toNat % 64 ∧
      ∀ i, i < 16 → i ≠ 6 → i ≠ 8 → b.getD i 0 = b'.getD i 0) := by
  refine ⟨⟨fun e => textOf_inj h.len h'.len ht (e ▸ ht'), fun e => textOf_unique ht (e ▸ ht')⟩, ⟨?_, ?_⟩⟩
  · rintro rfl
    refine ⟨by have := h.version; have := h'.version; omega, by have := h.variant; have := h'.variant; omega, fun i hi h6 h8 => ?_⟩
    rw [← h.rest i hi h6 h8, h'.rest i hi h6 h8]
  · rintro ⟨e6, e8, er⟩
    have key : ∀ i, i < 16 → u.getD i 0 = u'.getD i 0 := by
      intro i hi
      by_cases h6 : i = 6
      · subst h6; exact UInt8.toNat_inj.mp (by rw [h.version, h'.version, e6])
      by_cases h8 : i = 8
      · subst h8; exact UInt8.toNat_inj.mp (by rw [h.variant, h'.variant, e8])
      rw [h.rest i hi h6 h8, h'.rest i hi h6 h8, er i hi h6 h8]
    apply List.ext_getElem (h.len.trans h'.len.symm)
    intro i h1 h2
    have := key i (by have := h.len; omega)
    simpa only [List.getD_eq_getElem?_getD, List.getElem?_eq_getElem h1, List.getElem?_eq_getElem h2, Option.getD_some] using this

/-- A computed case: the ID of an encrypted object. -/
example : (((toyD1.encrypt toyPrims [7] ⟨some [1], some [2]⟩ []).run toyEnv ⟨fun _ _ => none, 200⟩).1) =
    .ok ⟨[200, 200, 200, 200, 200, 200, 0x48, 200, 0x88, 200, 200, 200, 200, 200, 200, 200], rfl⟩ := by decide +kernel

end D1
