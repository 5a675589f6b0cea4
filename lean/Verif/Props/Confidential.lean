import Verif.Proofs.Spy
import Verif.Proofs.D1Run
import Verif.Props.Vault
/-!
# C95, C96: the contents of objects and tokens are secret

Confidentiality as a game.  The adversary is the IO Provider and the clock, decides which calls are made and in which order
their steps are taken, and sees what they answer.  It knows all keys but one (the library instance is arbitrary but for that
key).  For the calls that take a plaintext it proposes two, and in all calls of one game the left ones are taken, or the right
ones.  It has to tell which.  It can have anything decrypted that it likes; of the answers of `Decrypt` and `GetTokenContents`
only those are kept from it that are among the plaintexts it proposed.
-/
namespace D1
open Spec Prog

/-! ## Objects: specification -/

/-- Two calls that differ at most in the plaintext of an object, not in its length. -/
def LengthAlike : Call → Call → Prop
  | .encrypt t o gs, .encrypt t' o' gs' => t' = t ∧ gs' = gs ∧ o'.associatedData = o.associatedData ∧
      o'.plaintext.map List.length = o.plaintext.map List.length
  | .update t i o, .update t' i' o' => t' = t ∧ i' = i ∧ o'.associatedData = o.associatedData ∧
      o'.plaintext.map List.length = o.plaintext.map List.length
  | c, c' => c' = c

/-- A challenge: the two calls. -/
abbrev CallPair : Type := { x : Call × Call // LengthAlike x.1 x.2 }

/-- The plaintexts of a call. -/
def plaintexts : Call → List NBytes
  | .encrypt _ o _ => [o.plaintext]
  | .update _ _ o => [o.plaintext]
  | _ => []

/-- The answer of a call.  `report` is there so that other programs can answer something else than calls do. -/
def tell {R : Type} (report : Res → R) : Res → Reply R
  | .object o => .opened o.plaintext o.associatedData
  | r => .plain (report r)

/-- The library with a given object key. -/
def D1.withKek (d : D1) (kek : BytesN 32) : D1 := { d with objectCryptor := ⟨kek.1⟩ }

/-- The challenges: the calls of one side. -/
def objectGame {R : Type} (P : Prims) (d : D1) (report : Res → R) (right : Bool) (kek : BytesN 32) : Challenges CallPair R where
  pairs x := (plaintexts x.1.1).zip (plaintexts x.1.2)
  prog x := (callProg P (d.withKek kek) (if right then x.1.2 else x.1.1)).bind fun r => .ret (tell report r)

/-! ## Objects: proof -/

/-- A pair of calls with sealing and opening of the object left open. -/
def chalS {R : Type} (P : Prims) (d : D1) (report : Res → R) : (l r : Call) → LengthAlike l r → SProg R
  | .encrypt t o gs, .encrypt _ o' _, h =>
    SProg.after (d.verifyAccess t scopeEncrypt) fun i => SProg.after newV4 fun oid =>
      .box ⟨o.plaintext, o'.plaintext, (objectAad oid o.associatedData).render, h.2.2.2⟩ fun r =>
        SProg.after ((Prog.ofPanic ((newAccess r.1).addGroups (gs ++ [i.id]))).bind fun access =>
          (access.seal P oid d.accessCryptor).bind fun sa =>
            (putSealedObject ⟨some r.2, o.associatedData, oid⟩ false).bind fun _ =>
              putSealedAccess sa false) fun _ => .ret (.plain (report (.oid oid)))
  | .update t oid o, .update _ _ o', h =>
    SProg.after (guardProg P d t scopeUpdate oid) fun a =>
      .box ⟨o.plaintext, o'.plaintext, (objectAad oid o.associatedData).render, h.2.2.2⟩ fun r =>
        SProg.after (((⟨a.groups, some r.1⟩ : Access).seal P oid d.accessCryptor).bind fun sa =>
          (putSealedObject ⟨some r.2, o.associatedData, oid⟩ true).bind fun _ =>
            putSealedAccess sa true) fun _ => .ret (.plain (report .unit))
  | .decrypt t oid, _, _ =>
    SProg.after (guardProg P d t scopeDecrypt oid) fun a => SProg.after (getSealedObject P oid) fun so =>
      .unbox (objectAad so.oid so.associatedData).render a.wrappedDEK.bytes so.ciphertext.bytes so.associatedData
  | c, _, _ => SProg.after (callProg P d c) fun r => .ret (tell report r)

theorem expand_chalS {R : Type} {P : Prims} (L : P.Laws) (d : D1) (report : Res → R) (l r : Call) (h : LengthAlike l r)
    (kek : BytesN 32) (right : Bool) :
    (chalS P d report l r h).expand P kek right =
      (callProg P (d.withKek kek) (if right then r else l)).bind fun r => .ret (tell report r) := by
  cases l with
  | encrypt t o gs =>
    cases r with
    | encrypt t' o' gs' =>
      obtain ⟨rfl, rfl, ha, hp⟩ := h
      simp only [chalS, SProg.expand_after, SProg.expand, boxText]
      cases right <;>
        simp only [callProg, D1.encrypt, Object.seal, Cryptor.encrypt_eq L, Prog.bind_eq, Prog.pure_eq, Prog.bind_assoc,
          Prog.ret_bind, if_true, Bool.false_eq_true, if_false, ha, side] <;> rfl
    | _ => exact nomatch h
  | update t oid o =>
    cases r with
    | update t' oid' o' =>
      obtain ⟨rfl, rfl, ha, hp⟩ := h
      simp only [chalS, SProg.expand_after, SProg.expand, boxText]
      cases right <;>
        simp only [callProg, update_eq, Object.seal, Cryptor.encrypt_eq L, Prog.bind_eq, Prog.pure_eq, Prog.bind_assoc,
          Prog.ret_bind, if_true, Bool.false_eq_true, if_false, ha, side] <;> rfl
    | _ => exact nomatch h
  | decrypt t oid =>
    have h : r = .decrypt t oid := by cases r <;> exact h
    subst h
    simp only [chalS, SProg.expand_after, SProg.expand, ite_self, callProg, decrypt_eq, Prog.bind_assoc]
    congr 1; funext a; congr 1; funext so
    rw [SealedObject.unseal, decrypt_boxOpen]
    simp only [D1.withKek]
    cases boxOpen P kek.1 (objectAad so.oid so.associatedData).render a.wrappedDEK.bytes so.ciphertext.bytes <;> rfl
  | delete t oid =>
    have h : r = .delete t oid := by cases r <;> exact h
    subst h
    simp only [chalS, SProg.expand_after, ite_self]
    rfl
  | getGroups t oid =>
    have h : r = .getGroups t oid := by cases r <;> exact h
    subst h
    simp only [chalS, SProg.expand_after, ite_self]
    rfl
  | addGroups t oid gs =>
    have h : r = .addGroups t oid gs := by cases r <;> exact h
    subst h
    simp only [chalS, SProg.expand_after, ite_self]
    rfl
  | removeGroups t oid gs =>
    have h : r = .removeGroups t oid gs := by cases r <;> exact h
    subst h
    simp only [chalS, SProg.expand_after, ite_self]
    rfl
  | authorize t oid =>
    have h : r = .authorize t oid := by cases r <;> exact h
    subst h
    simp only [chalS, SProg.expand_after, ite_self]
    rfl

/-- The challenge with sealing and opening of the object left open. -/
def objectS {R : Type} (P : Prims) (d : D1) (report : Res → R) (x : CallPair) : SProg R := chalS P d report x.1.1 x.1.2 x.2

/-- The plaintexts that a challenge names. -/
def objectPairs (x : CallPair) : List (NBytes × NBytes) := (plaintexts x.1.1).zip (plaintexts x.1.2)

theorem objectGame_eq {R : Type} {P : Prims} (L : P.Laws) (d : D1) (report : Res → R) (right : Bool) :
    objectGame P d report right = fun kek => challenges P objectPairs (objectS P d report) kek right := by
  funext kek
  rw [objectGame, challenges]
  congr 1; funext x
  exact (expand_chalS L d report _ _ x.2 kek right).symm

theorem named_objectS {R : Type} (P : Prims) (d : D1) (report : Res → R) (x : CallPair) :
    (objectS P d report x).Named (objectPairs x) := by
  obtain ⟨⟨l, r⟩, h⟩ := x
  cases l with
  | encrypt t o gs =>
    cases r with
    | encrypt t' o' gs' =>
      exact SProg.named_after _ fun i => SProg.named_after _ fun oid =>
        ⟨List.mem_singleton.mpr rfl, fun r => SProg.named_after _ fun _ => trivial⟩
    | _ => exact nomatch h
  | update t oid o =>
    cases r with
    | update t' oid' o' =>
      exact SProg.named_after _ fun a => ⟨List.mem_singleton.mpr rfl, fun r => SProg.named_after _ fun _ => trivial⟩
    | _ => exact nomatch h
  | decrypt t oid => exact SProg.named_after _ fun a => SProg.named_after _ fun so => trivial
  | _ => exact SProg.named_after _ fun _ => trivial

/-- C95: whoever can tell which contents are stored can tell wrapped keys or AES-GCM ciphertexts apart. -/
theorem C95_contents {P : Prims} (L : P.Laws) (d : D1) {R : Type} (report : Res → R) (A : Spy CallPair (Reply R)) (n : Nat) :
    gap (spyGame (objectGame P d report false) A n) (spyGame (objectGame P d report true) A n) ≤
      wrapGap P (wrapAttack P objectPairs (objectS P d report) A n false) +
        sealGap P (sealAttack P objectPairs (objectS P d report) A n) +
        wrapGap P (wrapAttack P objectPairs (objectS P d report) A n true) := by
  rw [objectGame_eq L, objectGame_eq L]
  exact spy_gap L (named_objectS P d report) A n

theorem boxes_objectS {R : Type} (P : Prims) (d : D1) (report : Res → R) (x : CallPair) : (objectS P d report x).Boxes 1 := by
  obtain ⟨⟨l, r⟩, h⟩ := x
  cases l with
  | encrypt t o gs =>
    cases r with
    | encrypt t' o' gs' =>
      exact SProg.boxes_after _ fun i => SProg.boxes_after _ fun oid => fun r => SProg.boxes_after _ fun _ => trivial
    | _ => exact nomatch h
  | update t oid o =>
    cases r with
    | update t' oid' o' =>
      exact SProg.boxes_after _ fun a => fun r => SProg.boxes_after _ fun _ => trivial
    | _ => exact nomatch h
  | decrypt t oid => exact SProg.boxes_after _ fun a => SProg.boxes_after _ fun so => trivial
  | _ => exact SProg.boxes_after _ fun _ => trivial

/-- C95: the attacks ask no more often than the adversary moves. -/
theorem C95_questions (P : Prims) (d : D1) {R : Type} (report : Res → R) (A : Spy CallPair (Reply R)) (n : Nat) :
    (sealAttack P objectPairs (objectS P d report) A n).Asks n ∧
      ∀ right, (wrapAttack P objectPairs (objectS P d report) A n right).Asks n :=
  ⟨asks_sealAttack P (boxes_objectS P d report) A n, asks_wrapAttack P (boxes_objectS P d report) A n⟩

/-! ## Tokens -/

/-- A challenge about tokens: two contents of the same length to be put into a token, or a token to be opened. -/
inductive TokenCall where
  | create (left right : NBytes) (alike : right.map List.length = left.map List.length)
  | open (t : SealedToken)

def D1.withTek (d : D1) (tek : BytesN 32) : D1 := { d with tokenCryptor := ⟨tek.1⟩ }

/-- The contents that a challenge names. -/
def tokenPairs : TokenCall → List (NBytes × NBytes)
  | .create l r _ => [(l, r)]
  | .open _ => []

/-- The challenges: contents of one side, and opening. -/
def tokenGame {R : Type} (P : Prims) (d : D1) (report : SealedToken → R) (right : Bool) (tek : BytesN 32) :
    Challenges TokenCall R where
  pairs := tokenPairs
  prog
    | .create l r _ => ((d.withTek tek).createToken P (if right then r else l)).bind fun t => .ret (.plain (report t))
    | .open t => ((d.withTek tek).getTokenContents P t).bind fun p => .ret (.opened p none)

def tokenS {R : Type} (P : Prims) (report : SealedToken → R) : TokenCall → SProg R
  | .create l r h => SProg.after timeNow fun now =>
      .box ⟨l, r, (J.ofTime P (now.add tokenValidity)).render, h⟩
        fun x => .ret (.plain (report ⟨now.add tokenValidity, some x.2, some x.1⟩))
  | .open t => SProg.after timeNow fun now => if t.expiryTime.before now then .err .tokenExpired else
      .unbox (J.ofTime P t.expiryTime).render t.wrappedKey.bytes t.ciphertext.bytes none

theorem tokenGame_eq {R : Type} {P : Prims} (L : P.Laws) (d : D1) (report : SealedToken → R) (right : Bool) :
    tokenGame P d report right = fun tek => challenges P tokenPairs (tokenS P report) tek right := by
  funext tek
  rw [tokenGame, challenges]
  congr 1; funext x
  cases x with
  | create l r h =>
    simp only [tokenS, SProg.expand_after, SProg.expand, boxText]
    cases right <;>
      simp only [D1.createToken, newToken, Token.seal, Cryptor.encrypt_eq L, Prog.bind_eq, Prog.pure_eq,
        Prog.bind_assoc, Prog.ret_bind, if_true, Bool.false_eq_true, if_false, side] <;> rfl
  | «open» t =>
    simp only [tokenS, SProg.expand_after, D1.getTokenContents, SealedToken.unseal, Prog.bind_eq, Prog.pure_eq, timeNow,
      Prog.bind]
    congr 1; funext now
    split
    · rfl
    · rw [decrypt_boxOpen]
      simp only [SProg.expand, D1.withTek]
      cases boxOpen P tek.1 (J.ofTime P t.expiryTime).render t.wrappedKey.bytes t.ciphertext.bytes <;> rfl

theorem named_tokenS {R : Type} (P : Prims) (report : SealedToken → R) (x : TokenCall) :
    (tokenS P report x).Named (tokenPairs x) := by
  cases x with
  | create l r h => exact SProg.named_after _ fun _ => ⟨List.mem_singleton.mpr rfl, fun _ => trivial⟩
  | «open» t =>
    refine SProg.named_after _ fun now => ?_
    split <;> trivial

/-- C96: the same for tokens. -/
theorem C96_contents {P : Prims} (L : P.Laws) (d : D1) {R : Type} (report : SealedToken → R) (A : Spy TokenCall (Reply R)) (n : Nat) :
    gap (spyGame (tokenGame P d report false) A n) (spyGame (tokenGame P d report true) A n) ≤
      wrapGap P (wrapAttack P tokenPairs (tokenS P report) A n false) +
        sealGap P (sealAttack P tokenPairs (tokenS P report) A n) +
        wrapGap P (wrapAttack P tokenPairs (tokenS P report) A n true) := by
  rw [tokenGame_eq L, tokenGame_eq L]
  exact spy_gap L (named_tokenS P report) A n

/-- C96: the attacks ask no more often than the adversary moves. -/
theorem C96_questions (P : Prims) {R : Type} (report : SealedToken → R) (A : Spy TokenCall (Reply R)) (n : Nat) :
    (sealAttack P tokenPairs (tokenS P report) A n).Asks n ∧
      ∀ right, (wrapAttack P tokenPairs (tokenS P report) A n right).Asks n := by
  have h : ∀ x, (tokenS P report x).Boxes 1 := by
    intro x
    cases x with
    | create l r h => exact SProg.boxes_after _ fun _ => fun _ => trivial
    | «open» t =>
      refine SProg.boxes_after _ fun now => ?_
      split <;> trivial
  exact ⟨asks_sealAttack P h A n, asks_wrapAttack P h A n⟩

/-! ## Cases

With an AES-GCM that leaves messages readable the adversaries below guess right every time, so the right hand sides of the
theorems are at least 1. -/

theorem gap_sure (f : Bool → PMF Bool) (h : ∀ right, f right = PMF.pure right) : gap (f false) (f true) = 1 := by
  simp [gap, chance, h]

theorem readable (right : Bool) (key : BytesN 32) (nonce : BytesN 12) (aad : Bytes) :
    ((gcmBox toyPrims key.1 nonce.1 aad (boxText (side right (some [0]) (some [1])))).take 6 == boxText (some [1])) = right := by
  have h : ∀ m : Bytes, m.length = 6 → (gcmBox toyPrims key.1 nonce.1 aad m).take 6 = m := by
    intro m hm
    show ((m ++ toyTag key.1 nonce.1 aad m) ++ nonce.1).take 6 = m
    rw [List.append_assoc, List.take_append_of_le_length (by omega), List.take_of_length_le (by omega)]
  cases right
  · rw [h _ (by decide)]; decide
  · rw [h _ (by decide)]; decide

/-- The adversary has one token made, and looks at its ciphertext. -/
def tokenSpy : Spy TokenCall (Reply SealedToken) where
  answer _ e := (Store.exec (fun _ _ => none) (fun _ => none) ⟨0, 0⟩ e).1
  move
    | 2, _ => .begin (.create (some [0]) (some [1]) rfl)
    | _, _ => .step 0
  guess v := match v with
    | [_, .result _ (.ok (.plain t))] => t.ciphertext.bytes.take 6 == boxText (some [1])
    | _ => false

theorem C96_case : gap (spyGame (tokenGame toyPrims toyD1 id false) tokenSpy 3)
    (spyGame (tokenGame toyPrims toyD1 id true) tokenSpy 3) = 1 := by
  refine gap_sure (fun right => spyGame (tokenGame toyPrims toyD1 id right) tokenSpy 3) fun right => ?_
  simp only [tokenGame_eq toyLaws, spyGame]
  have := fun kek => play_spy toyLaws tokenSpy (named_tokenS toyPrims id) kek right 3 [] [] [] [] (by simp)
    (fun e he => by simp at he)
  simp only [List.map_nil] at this
  simp only [← this]
  simp only [Spy.tree, tokenSpy, tokenS, timeNow, SProg.after, SProg.tree, List.nil_append, List.getElem?_cons_zero,
    SProg.next, OAdv.play, List.set_cons_zero, Reply.masked]
  simp only [boxReal, PMF.bind_bind, PMF.pure_bind, id, NBytes.bytes, List.singleton_append, readable]
  simp only [Option.getD_some, readable, PMF.bind_const]

/-- The adversary has a token made and opened, and looks whether it is shown the contents. -/
def tokenReader (l r : NBytes) (h : r.map List.length = l.map List.length) : Spy TokenCall (Reply SealedToken) where
  answer _ e := (Store.exec (fun _ _ => none) (fun _ => none) ⟨0, 0⟩ e).1
  move
    | 5, _ => .begin (.create l r h)
    | 2, [_, .result _ (.ok (.plain t))] => .begin (.open t)
    | 1, _ => .step 1
    | 0, _ => .step 1
    | _, _ => .step 0
  guess v := match v with
    | [_, _, _, .result _ (.ok (.opened p _))] => p == l
    | _ => false

/-- C96: contents of opened tokens are shown, unless they would give the side away. -/
theorem C96_shown (right : Bool) :
    spyGame (tokenGame toyPrims toyD1 id right) (tokenReader (some [0]) (some [0]) rfl) 6 = PMF.pure true ∧
    spyGame (tokenGame toyPrims toyD1 id right) (tokenReader (some [0]) (some [1]) rfl) 6 = PMF.pure false := by
  have hb : ((⟨0, 0⟩ : GoTime).add tokenValidity).before ⟨0, 0⟩ = false := by decide
  constructor
  all_goals
    simp only [tokenGame_eq toyLaws, spyGame]
    have := fun (A : Spy TokenCall (Reply SealedToken)) kek => play_spy toyLaws A (named_tokenS toyPrims id) kek right 6 [] [] [] []
      (by simp) (fun e he => by simp at he)
    simp only [List.map_nil] at this
    simp only [← this]
    simp only [Spy.tree, tokenReader, tokenS, timeNow, SProg.after, SProg.tree, List.nil_append, List.getElem?_cons_zero,
      SProg.next, OAdv.play, List.set_cons_zero, Reply.masked, List.singleton_append, List.cons_append, List.getElem?_cons_succ,
      List.set_cons_succ, Store.exec, id, hb, Bool.false_eq_true, if_false, NBytes.bytes, Option.getD_some]
    simp only [boxReal, PMF.bind_bind, PMF.pure_bind, issued, List.find?_cons, and_self, decide_true, Option.map_some,
      SProg.told, SProg.next, Reply.masked, tokenPairs]
    simp [OAdv.play, PMF.bind_const]

/-- The adversary has one object encrypted, and looks at what is to be stored. -/
def objectSpy : Spy CallPair (Reply Res) where
  answer _ e := (Store.exec (fun _ _ => none) (fun _ => none) ⟨0, 0⟩ e).1
  move
    | 1, _ => .begin ⟨(.encrypt [65] ⟨some [0], none⟩ [], .encrypt [65] ⟨some [1], none⟩ []), rfl, rfl, rfl, rfl⟩
    | _, _ => .step 0
  guess v := match v with
    | [.request _ ⟨.put _ _ data, _⟩] => match (toyPrims.unmarshal data).bind (SealedObject.ofJ toyPrims) with
      | some o => o.ciphertext.bytes.take 6 == boxText (some [1])
      | none => false
    | _ => false

theorem C95_case : gap (spyGame (objectGame toyPrims toyD1 id false) objectSpy 2)
    (spyGame (objectGame toyPrims toyD1 id true) objectSpy 2) = 1 := by
  refine gap_sure (fun right => spyGame (objectGame toyPrims toyD1 id right) objectSpy 2) fun right => ?_
  simp only [objectGame_eq toyLaws, spyGame]
  have := fun kek => play_spy toyLaws objectSpy (named_objectS toyPrims toyD1 id) kek right 2 [] [] [] [] (by simp)
    (fun e he => by simp at he)
  simp only [List.map_nil] at this
  simp only [← this]
  simp only [Spy.tree, objectSpy, objectS, chalS]
  have hv : toyD1.verifyAccess [65] scopeEncrypt = .ret ⟨[65], scopeAll, [([50], ⟨[50], scopeAll⟩)]⟩ := rfl
  rw [hv]
  have ha : ∀ w, (newAccess w).addGroups [[65]] = some ⟨some [[65]], some w⟩ := fun _ => rfl
  simp only [SProg.after, ha, Prog.ofPanic, Prog.ret_bind, newV4, randBytes, Access.seal, Cryptor.encrypt_eq toyLaws,
    Prog.bind_eq, Prog.pure_eq, Prog.bind_assoc, Prog.bind, SProg.tree, putSealedObject, ioPut, Bool.false_eq_true, if_false,
    Store.exec, OAdv.play, List.nil_append, List.getElem?_cons_zero, SProg.next, putSealedAccess]
  simp only [boxReal, PMF.bind_bind, PMF.pure_bind, toyLaws.unmarshal_render, Option.bind_some,
    SealedObject.ofJ_toJ toyLaws, NBytes.bytes, Option.getD_some, readable, PMF.bind_const]

end D1
