import Verif.Props.EndToEnd
/-!
# A computed case of C44

Takes the kernel about a minute.
-/
namespace D1
open Spec

/-! A whole story, computed: an owner makes a group and an object shared with it; another user cannot read the object, is added to the
group, can read it, is removed, and cannot read it any more. -/

def toyStandalone : Standalone := ⟨⟨List.replicate 32 4⟩, ⟨List.replicate 32 5⟩, ⟨List.replicate 32 6⟩⟩
def toySystem : D1 := { toyD1 with idProvider := toyStandalone.getIdentity toyPrims }

/-- What reading an object gives. -/
def tryRead (token : GoString) (oid : Oid) : Prog (Option Object) :=
  (toySystem.decrypt toyPrims token oid).attempt fun r => .ret (match r with | .ok o => some o | .error _ => none)

def toyStory : Prog (List (Option Object)) := do
  let s := toyStandalone
  let (owner, pwd) ← s.newUser toyPrims [scopeAll]
  let (token, _) ← s.loginUser toyPrims owner pwd
  let (user, pwd2) ← s.newUser toyPrims [scopeDecrypt]
  let (token2, _) ← s.loginUser toyPrims user pwd2
  let g ← s.newGroup toyPrims token [scopeDecrypt]
  let oid ← toySystem.encrypt toyPrims token ⟨some [104, 105], some [33]⟩ [g]
  let r1 ← tryRead token2 oid
  s.addUserToGroups toyPrims token user [g]
  let r2 ← tryRead token2 oid
  s.removeUserFromGroups toyPrims token user [g]
  let r3 ← tryRead token2 oid
  return [r1, r2, r3]

example : (toyStory.run toyEnv ⟨fun _ _ => none, 0⟩).1 = .ok [none, some ⟨some [104, 105], some [33]⟩, none] := by decide +kernel

end D1
