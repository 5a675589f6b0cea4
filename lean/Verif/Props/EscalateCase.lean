import Verif.Props.Escalate
/-!
# A case of C85

An owner and another user have signed up and logged in, and the owner has made a group and an object shared with it.  The other user reads the object,
shares it, updates it, deletes it, makes a group and joins the owner's group, all at once, while the owner reads the object.
-/
namespace D1
open Spec Prog

/-- Draws that do not repeat for a while. -/
def slowEnv : Env := { toyEnv with rand := fun t n => some ⟨List.replicate n (UInt8.ofNat (min t 255)), by simp⟩ }

structure Cast where
  owner : GoString
  token : GoString
  user : GoString
  token2 : GoString
  g : GoString
  oid : Oid

def castProg : Prog Cast := do
  let s := toyStandalone
  let (owner, pwd) ← s.newUser toyPrims [scopeAll]
  let (token, _) ← s.loginUser toyPrims owner pwd
  let (user, pwd2) ← s.newUser toyPrims [scopeAll]
  let (token2, _) ← s.loginUser toyPrims user pwd2
  let g ← s.newGroup toyPrims token [scopeAll]
  let oid ← toySystem.encrypt toyPrims token ⟨some [104, 105], some [33]⟩ [g]
  return ⟨owner, token, user, token2, g, oid⟩

def castRun : Outcome Cast × World := castProg.run slowEnv ⟨fun _ _ => none, 0⟩
def cast : Cast := match castRun.1 with | .ok c => c | _ => ⟨[], [], [], [], [], nilOid⟩
def castIndex : SecureIndex := { toyIndex with idProvider := toyStandalone.getIdentity toyPrims }

def castCalls : List ApiCall :=
  [.d1 (.decrypt cast.token cast.oid), .d1 (.decrypt cast.token2 cast.oid), .d1 (.addGroups cast.token2 cast.oid [cast.user]),
    .d1 (.update cast.token2 cast.oid ⟨none, none⟩), .d1 (.delete cast.token2 cast.oid), .dir (.newGroup cast.token2 [scopeAll]),
    .dir (.addUser cast.token2 cast.user [cast.g])]

/-- All in turn, many times. -/
def castSchedule : List Nat := (List.range 84).map (· % 7)

/-- An ID on the access list of the object. -/
def castG (x : GoString) : Prop := x = cast.owner ∨ x = cast.g
instance (x : GoString) : Decidable (castG x) := inferInstanceAs (Decidable (_ ∨ _))

/-- Under this schedule the owner's call and the making of a group succeed and all else fails; and what is stored is as C85 asks. -/
theorem cast_facts :
    (commits slowEnv castSchedule castRun.2 (castCalls.map (apiProg toyPrims toySystem castIndex toyStandalone))).map (fun x => (x.1, succeeded x.2)) =
      [(6, false), (1, false), (2, false), (3, false), (4, false), (0, true), (5, true)] ∧
    tokenUser toyPrims toyStandalone.tokenCryptor cast.token2 (slowEnv.now 30).ns = some cast.user ∧
    (match castRun.2.store cast.user dtUser with
      | some b => match (toyPrims.unmarshal b).bind SealedUser.ofJ with
        | some su => match su.unseal toyPrims toyStandalone.userCryptor with
          | .ok x => (x.groups.getD []).all fun g => decide (sanitize g = g ∧ ¬ castG g)
          | _ => false
        | none => false
      | none => false) = true ∧
    (match castRun.2.store cast.oid.1 dtAccess with
      | some b => match (toyPrims.unmarshal b).bind (SealedAccess.ofJ toyPrims) with
        | some sa => match toySystem.accessCryptor.decrypt toyPrims Access.ofJ (J.ofBytes (some cast.oid.1)) sa.wrappedKey.bytes sa.ciphertext.bytes with
          | .ok x => (x.groups.getD []).all fun g => decide (sanitize g = g ∧ castG g)
          | _ => false
        | none => false
      | none => false) = true ∧
    castRun.2.t = 40 ∧ sanitize cast.user = cast.user ∧ ¬ castG cast.user ∧
    cast.owner = newName ⟨List.replicate 16 0, rfl⟩ ∧ cast.g = newName ⟨List.replicate 16 22, rfl⟩ ∧ cast.oid = mkV4 ⟨List.replicate 16 33, rfl⟩ := by
  decide +kernel

theorem cast_outsider : ByOutsider toyPrims toyStandalone (· = cast.user) cast.token2 := ⟨_, rfl, (slowEnv.now 30).ns, cast_facts.2.1⟩

theorem cast_shutOut : ShutOut toyPrims toySystem toyStandalone cast.oid (· = cast.user) castG castRun.2.store := by
  constructor
  · rintro u hu b x hb ⟨su, h1, h2⟩
    rw [show u = cast.user from hu] at hb
    have key := cast_facts.2.2.1
    simp only [hb, h1, h2, List.all_eq_true, decide_eq_true_eq] at key
    exact key
  · rintro b x hb ⟨sa, h1, h2⟩
    have key := cast_facts.2.2.2.1
    simp only [hb, h1, h2, List.all_eq_true, decide_eq_true_eq] at key
    exact key

theorem cast_draws : ∀ t b, castRun.2.t ≤ t → slowEnv.rand t 16 = some b → ¬ castG (newName b) ∧ mkV4 b ≠ cast.oid := by
  intro t b ht hb
  obtain ⟨-, -, -, -, h40, -, -, h1, h2, h3⟩ := cast_facts
  rw [h40] at ht
  have key : ∀ k : Fin 256, 40 ≤ k.1 → ¬ (newName ⟨List.replicate 16 (UInt8.ofNat k.1), by simp⟩ = newName ⟨List.replicate 16 0, rfl⟩ ∨
      newName ⟨List.replicate 16 (UInt8.ofNat k.1), by simp⟩ = newName ⟨List.replicate 16 22, rfl⟩) ∧
      mkV4 ⟨List.replicate 16 (UInt8.ofNat k.1), by simp⟩ ≠ mkV4 ⟨List.replicate 16 33, rfl⟩ := by decide +kernel
  simp only [slowEnv, Option.some.injEq] at hb
  subst hb
  rw [castG, h1, h2, h3]
  exact key ⟨min t 255, by omega⟩ (by simp only; omega)

theorem cast_notLetIn : ∀ c ∈ castCalls, NotLetIn toyPrims toyStandalone cast.oid (· = cast.user) castG c := by
  simp only [castCalls, List.mem_cons, List.not_mem_nil, or_false]
  rintro c (rfl | rfl | rfl | rfl | rfl | rfl | rfl)
  · trivial
  · trivial
  · exact fun _ h => absurd cast_outsider h
  · trivial
  · trivial
  · trivial
  · exact fun _ h => absurd cast_outsider h

/-- So the outsider's calls fail under every schedule. -/
theorem cast_fails (sch : List Nat) (j : Nat) (c : Call) (hj : castCalls[j]? = some (ApiCall.d1 c)) (hc : c.onOid = some cast.oid)
    (ht : c.token = cast.token2) : (j, Outcome.ok ()) ∈ commits slowEnv sch castRun.2 (castCalls.map (apiProg toyPrims toySystem castIndex toyStandalone)) →
      ∃ t, c = .delete t cast.oid :=
  ((C85_shut_out toyLaws rfl rfl (fun u hu => by rw [show u = cast.user from hu]; exact ⟨cast_facts.2.2.2.2.2.1, cast_facts.2.2.2.2.2.2.1⟩)
    cast_shutOut cast_draws castCalls cast_notLetIn sch).2 j c hj hc (by rw [ht]; exact cast_outsider)).1

end D1
