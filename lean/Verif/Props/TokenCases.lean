import Verif.Props.Concurrent
import Verif.Props.DirConcurrent
import Verif.Props.ObjectCases
/-!
# Concrete cases for the index, tokens and sealed users and groups: C24, C26, C28, C29, C36, C42, C43

The index of `toyOne` and the directory of `toyDir`: users `[7]` and `[8]` with password `[112]`, both in group `[20]`.
-/
namespace D1
open Spec Prog

/-! ## The index -/

/-- Identifier `[97]` under `[107]` and under `[108]`. -/
def toyBoth : World := ((ixProg toyPrims toyIndex 9 (.add [1] [108] [97])).run toyEnv toyOne).2

theorem toyBoth_rel : IxRel toyPrims toyIndex [[107], [108]] 5 toyBoth.store ((emptyIndex.set [107] [[97]]).set [108] [[97]]) 2 := by
  obtain ⟨w', h1, h2⟩ := run_ixCall toyLaws (i := toyIndex) rfl toyEnv_noFault toyEnv_randOk toyIndex_idp (K := [[107], [108]]) (N := 5)
    (by decide) toyIndex_apart (a := 1) (by decide) (fuel := 9) (by decide) (.add [1] [108] [97]) (by decide) toyOne_rel
  rw [toyBoth, h1]
  exact h2

/-- C28: `[97]` is deleted under `[107]`, and stays under `[108]`. -/
theorem C28_case : ((toyIndex.search toyPrims 9 [1] [107]).run toyEnv toyBoth).1 = .ok [[97]] ∧
    ((toyIndex.delete toyPrims 9 [1] [107] [97]).run toyEnv toyBoth).1 = .ok () ∧
    ((toyIndex.search toyPrims 9 [1] [107]).run toyEnv ((toyIndex.delete toyPrims 9 [1] [107] [97]).run toyEnv toyBoth).2).1 = .ok [] ∧
    ((toyIndex.search toyPrims 9 [1] [108]).run toyEnv ((toyIndex.delete toyPrims 9 [1] [107] [97]).run toyEnv toyBoth).2).1 = .ok [[97]] ∧
    IxRel toyPrims toyIndex [[107], [108]] 5 toyBoth.store ((emptyIndex.set [107] [[97]]).set [108] [[97]]) 2 :=
  have h : ((toyIndex.search toyPrims 9 [1] [107]).run toyEnv toyBoth).1 = .ok [[97]] ∧
      ((toyIndex.delete toyPrims 9 [1] [107] [97]).run toyEnv toyBoth).1 = .ok () ∧
      ((toyIndex.search toyPrims 9 [1] [107]).run toyEnv ((toyIndex.delete toyPrims 9 [1] [107] [97]).run toyEnv toyBoth).2).1 = .ok [] ∧
      ((toyIndex.search toyPrims 9 [1] [108]).run toyEnv ((toyIndex.delete toyPrims 9 [1] [107] [97]).run toyEnv toyBoth).2).1 = .ok [[97]] := by
    decide +kernel
  ⟨h.1, h.2.1, h.2.2.1, h.2.2.2, toyBoth_rel⟩

/-- C29: deleting ends, however large the bound on the number of rounds is. -/
theorem C29_case (fuel : Nat) (h : 5 < fuel) : ((ixProg toyPrims toyIndex fuel (.delete [1] [107] [97])).run toyEnv toyBoth).1 = .ok .unit := by
  obtain ⟨r, hr⟩ := C29_terminates toyLaws (i := toyIndex) rfl toyEnv_noFault toyEnv_randOk toyIndex_idp (K := [[107], [108]]) (N := 5)
    (by decide) toyIndex_apart (a := 2) (by decide) (.delete [1] [107] [97]) (by decide) toyBoth_rel
  have h9 : ((ixProg toyPrims toyIndex 9 (.delete [1] [107] [97])).run toyEnv toyBoth).1 = .ok .unit := by decide +kernel
  rw [(hr fuel h).1, ← (hr 9 (by decide)).1, h9]

/-- C36: `[98]` is added, found and deleted; the byte FF is added, found as U+FFFD and not deleted. -/
theorem C36_case :
    ((toyIndex.search toyPrims 9 [1] [107]).run toyEnv ((toyIndex.add toyPrims 9 [1] [107] [98]).run toyEnv toyBoth).2).1 = .ok [[97], [98]] ∧
    ((toyIndex.search toyPrims 9 [1] [107]).run toyEnv ((toyIndex.delete toyPrims 9 [1] [107] [98]).run toyEnv
      ((toyIndex.add toyPrims 9 [1] [107] [98]).run toyEnv toyBoth).2).2).1 = .ok [[97]] ∧
    ((toyIndex.search toyPrims 9 [1] [107]).run toyEnv ((toyIndex.delete toyPrims 9 [1] [107] [0xFF]).run toyEnv
      ((toyIndex.add toyPrims 9 [1] [107] [0xFF]).run toyEnv toyBoth).2).2).1 = .ok [[97], [0xEF, 0xBF, 0xBD]] := by decide +kernel

/-! ## Tokens -/

/-- What a login of `[7]` answers. -/
def toyLogin : GoString × Int := match ((toyStandalone.loginUser toyPrims [7] [112]).run toyEnv toyDir).1 with
  | .ok r => r
  | _ => ([], 0)

/-- C24: a login, and the token it gave is accepted as `[7]`. -/
theorem C24_case : (∃ tr, Yields (toyStandalone.loginUser toyPrims [7] [112]) tr (.ok toyLogin)) ∧
    ∃ tr i, Yields (toyStandalone.getIdentity toyPrims toyLogin.1) tr (.ok i) ∧ i.id = [7] := by
  have h1 : ((toyStandalone.loginUser toyPrims [7] [112]).run toyEnv toyDir).1 = .ok toyLogin := by decide +kernel
  have h2 : (match ((toyStandalone.getIdentity toyPrims toyLogin.1).run toyEnv toyDir).1 with
    | .ok i => decide (i.id = [7]) | _ => false) = true := by decide +kernel
  obtain ⟨t1, g1⟩ := yields_of_steps (toyStandalone.loginUser toyPrims [7] [112]) toyDir toyEnv
  obtain ⟨t2, g2⟩ := yields_of_steps (toyStandalone.getIdentity toyPrims toyLogin.1) toyDir toyEnv
  rw [h1] at g1
  refine ⟨⟨t1, g1⟩, ?_⟩
  cases hr : ((toyStandalone.getIdentity toyPrims toyLogin.1).run toyEnv toyDir).1 with
  | ok i => rw [hr] at g2 h2; exact ⟨t2, i, g2, of_decide_eq_true h2⟩
  | err e => rw [hr] at h2; cases h2
  | panic => rw [hr] at h2; cases h2
  | diverge => rw [hr] at h2; cases h2

/-- C26: two strings that `String()` produced; they are different, and so are the tokens they denote. -/
theorem C26_case : toyToken [7] ≠ toyToken [8] ∧ (tokenFromString toyPrims (toyToken [7])).toBool = true ∧
    (tokenFromString toyPrims (toyToken [8])).toBool = true ∧
    (tokenFromString toyPrims (toyToken [7])).map SealedToken.ciphertext ≠ (tokenFromString toyPrims (toyToken [8])).map SealedToken.ciphertext := by
  decide +kernel

/-- Requests and answers of a run. -/
def traceOf {α : Type} (env : Env) : Prog α → World → List Event
  | .op e k, w => ⟨e, (w.exec env e).1⟩ :: traceOf env (k (w.exec env e).1) (w.exec env e).2
  | _, _ => []

theorem yields_traceOf {α : Type} (env : Env) : ∀ (p : Prog α) (w : World), Yields p (traceOf env p w) (p.run env w).1
  | .ret a, _ => .ret a
  | .err e, _ => .err e
  | .panic, _ => .panic
  | .diverge, _ => .diverge
  | .op e k, w => .op e k _ _ _ (yields_traceOf env (k (w.exec env e).1) (w.exec env e).2)

/-- A sealed user. -/
def toySealed : SealedUser := match ((User.seal toyPrims ⟨some [1], scopeAll, some [[20]]⟩ [7] toyStandalone.userCryptor).run toyEnv toyDir).1 with
  | .ok su => su
  | _ => ⟨[], none, none⟩

/-- A sealed group. -/
def toySealedGroup : SealedGroup := match ((Group.seal toyPrims ⟨scopeAll⟩ [20] toyStandalone.groupCryptor).run toyEnv toyDir).1 with
  | .ok sg => sg
  | _ => ⟨[], none, none⟩

theorem yields_getUser_of {P : Prims} {s : Standalone} {uid : GoString} {b : Bytes} {su : SealedUser} {u : User}
    (h1 : (P.unmarshal b).bind SealedUser.ofJ = some su) (h2 : su.unseal P s.userCryptor = .ok u) :
    Yields (s.getUser P uid) [⟨.get uid dtUser, (.ok b : Except IoErr Bytes)⟩] (.ok u) := by
  refine .op _ _ _ _ _ ?_
  show Yields (match (P.unmarshal b).bind SealedUser.ofJ with
    | none => .err .json
    | some user => Prog.ofExcept (user.unseal P s.userCryptor)) [] _
  simp only [h1, h2]
  exact .ret _

theorem yields_getGroup_of {P : Prims} {s : Standalone} {gid : GoString} {b : Bytes} {sg : SealedGroup} {g : Group}
    (h1 : (P.unmarshal b).bind SealedGroup.ofJ = some sg) (h2 : sg.unseal P s.groupCryptor = .ok g) :
    Yields (s.getGroup P gid) [⟨.get gid dtGroup, (.ok b : Except IoErr Bytes)⟩] (.ok g) := by
  refine .op _ _ _ _ _ ?_
  show Yields (match (P.unmarshal b).bind SealedGroup.ofJ with
    | none => .err .json
    | some group => Prog.ofExcept (group.unseal P s.groupCryptor)) [] _
  simp only [h1, h2]
  exact .ret _

/-- C42: records of a user and a group that were sealed; they are accepted when they are read, also in place of others. -/
theorem C42_case : (∃ tr, Yields (User.seal toyPrims ⟨some [1], scopeAll, some [[20]]⟩ [7] toyStandalone.userCryptor) tr (.ok toySealed)) ∧
    (∃ tr, Yields (Group.seal toyPrims ⟨scopeAll⟩ [20] toyStandalone.groupCryptor) tr (.ok toySealedGroup)) ∧
    (∀ uid, Yields (toyStandalone.getUser toyPrims uid) [⟨.get uid dtUser, (.ok toySealed.toJ.render : Except IoErr Bytes)⟩]
      (.ok ⟨some [1], scopeAll, some [[20]]⟩)) ∧
    ∀ gid, Yields (toyStandalone.getGroup toyPrims gid) [⟨.get gid dtGroup, (.ok toySealedGroup.toJ.render : Except IoErr Bytes)⟩] (.ok ⟨scopeAll⟩) := by
  have h1 : ((User.seal toyPrims ⟨some [1], scopeAll, some [[20]]⟩ [7] toyStandalone.userCryptor).run toyEnv toyDir).1 = .ok toySealed := by decide +kernel
  have h2 : ((Group.seal toyPrims ⟨scopeAll⟩ [20] toyStandalone.groupCryptor).run toyEnv toyDir).1 = .ok toySealedGroup := by decide +kernel
  have g1 := yields_traceOf toyEnv (User.seal toyPrims ⟨some [1], scopeAll, some [[20]]⟩ [7] toyStandalone.userCryptor) toyDir
  have g2 := yields_traceOf toyEnv (Group.seal toyPrims ⟨scopeAll⟩ [20] toyStandalone.groupCryptor) toyDir
  rw [h1] at g1
  rw [h2] at g2
  have e1 : (toyPrims.unmarshal toySealed.toJ.render).bind SealedUser.ofJ = some toySealed := by decide +kernel
  have e2 : (toyPrims.unmarshal toySealedGroup.toJ.render).bind SealedGroup.ofJ = some toySealedGroup := by decide +kernel
  have e3 : toySealed.unseal toyPrims toyStandalone.userCryptor = .ok ⟨some [1], scopeAll, some [[20]]⟩ := by decide +kernel
  have e4 : toySealedGroup.unseal toyPrims toyStandalone.groupCryptor = .ok ⟨scopeAll⟩ := by decide +kernel
  refine ⟨⟨_, g1⟩, ⟨_, g2⟩, fun uid => ?_, fun gid => ?_⟩
  · exact yields_getUser_of e1 e3
  · exact yields_getGroup_of e2 e4

/-- D1 with the token key of the Standalone provider. -/
def toyKeys : D1 := { toyD1 with tokenCryptor := toyStandalone.tokenCryptor }

/-- The token that `D1.CreateToken` makes with contents `[7]`. -/
def toyMade : GoString := match ((toyKeys.createToken toyPrims (some [7])).run toyEnv toyDir).1 with
  | .ok t => t.string toyPrims
  | _ => []

/-- C43: a token of `D1.CreateToken` is accepted as one of user `[7]` when both have the same token key.  With these primitives it is
also accepted with another key: wrapping does not depend on the key (`C43_other_key`). -/
theorem C43_case : succeeded ((toyKeys.createToken toyPrims (some [7])).run toyEnv toyDir).1 = true ∧
    (match ((toyStandalone.getIdentity toyPrims toyMade).run toyEnv toyDir).1 with | .ok i => decide (i.id = [7]) | _ => false) = true ∧
    succeeded ((Standalone.getIdentity toyPrims { toyStandalone with tokenCryptor := toyD1.tokenCryptor } toyMade).run toyEnv toyDir).1 = true := by
  decide +kernel

end D1
