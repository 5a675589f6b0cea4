import Verif.Model.Standalone
import Verif.Model.Index
/-!
# What a key or nonce may be used for

The random source answers with byte strings.  Everything that leaves the library is listed in order: records sent to
the IO Provider, tokens and passwords handed to the caller.  Each of them says which answers of the random source it
was made of.
-/
namespace D1.Spec
open Prog

/-- What leaves the library. -/
inductive Out where
  /-- A record in a `Put` or `Update` request. -/
  | record (dt : DataType) (b : Bytes)
  /-- A token string. -/
  | token (s : GoString)
  /-- A password. -/
  | password (s : GoString)

/-- One step of a call: an answered effect, or the end, which may hand something to the caller. -/
inductive Step where
  | eff (e : Event)
  | done (o : Option Out)

/-- The answers of the random source. -/
def Step.drawn : Step → List Bytes
  | .eff ⟨.rand _, some b⟩ => [b.1]
  | _ => []

def Step.outs : Step → List Out
  | .eff ⟨.put _ dt b, _⟩ => [.record dt b]
  | .eff ⟨.update _ dt b, _⟩ => [.record dt b]
  | .done (some o) => [o]
  | _ => []

/-- A call performs these steps, possibly not to its end, whatever is answered. -/
inductive Acts : Prog (Option Out) → List Step → Prop
  | stop (p : Prog (Option Out)) : Acts p []
  | done (o : Option Out) : Acts (.ret o) [.done o]
  | op (e : Eff) (k : e.Resp → Prog (Option Out)) (r : e.Resp) (l : List Step) : Acts (k r) l → Acts (.op e k) (.eff ⟨e, r⟩ :: l)

/-- The steps of call `i` in an interleaving of the steps of many calls. -/
def own (i : Nat) (tr : List (Nat × Step)) : List Step := tr.filterMap fun x => if x.1 = i then some x.2 else none

/-- All random answers and all that leaves the library, in order. -/
def drawnIn (tr : List (Nat × Step)) : List Bytes := tr.flatMap fun x => x.2.drawn
def outsIn (tr : List (Nat × Step)) : List Out := tr.flatMap fun x => x.2.outs

/-- The byte string in a field of a JSON document. -/
def bytesField (P : Prims) (b : Bytes) (name : GoString) : Option Bytes :=
  ((P.unmarshal b).bind J.fields).bind fun fs => (fs.lookup name).bind fun j => j.toBytes.join

/-- The document carries a ciphertext made with this key and nonce, and the nonce itself at its end. -/
def SealedIn (P : Prims) (b key nonce : Bytes) : Prop :=
  key.length = 32 ∧ nonce.length = 12 ∧ ∃ aad text, bytesField P b nCiphertext = some (P.gcmSeal key nonce aad text ++ nonce)

/-- The document carries the key wrapped under `kek`. -/
def KeyIn (P : Prims) (kek b key : Bytes) : Prop :=
  ∃ w, bytesField P b nWrappedKey = some w ∧ kwpWrap P kek key = .ok w

/-- Which key wraps the data keys of which records: access records AEK, users UEK, groups GEK, index nodes a key derived from
IEK and the keyword.  An object record does not carry its key. -/
def Wraps (P : Prims) (keys : Keys) (conf : StandaloneConfig) (dt : DataType) (kek : Bytes) : Prop :=
  (dt = dtAccess ∧ kek = keys.aek) ∨ (dt = dtUser ∧ kek = conf.uek) ∨ (dt = dtGroup ∧ kek = conf.gek) ∨
    (dt = dtNode ∧ ∃ kw, kmacKdf P 32 keys.iek labelId [kw] = some kek)

/-- The ciphertext that a record or a token carries. -/
def cipherOf (P : Prims) : Out → Option Bytes
  | .record _ b => bytesField P b nCiphertext
  | .token s => (b64Dec true s).bind fun b => bytesField P b nCiphertext
  | .password _ => none

/-- The wrapped data key that a record or a token carries. -/
def wrappedOf (P : Prims) : Out → Option Bytes
  | .record _ b => bytesField P b nWrappedKey
  | .token s => (b64Dec true s).bind fun b => bytesField P b nWrappedKey
  | .password _ => none

/-- The key it is wrapped under. -/
def WrapsOut (P : Prims) (keys : Keys) (conf : StandaloneConfig) : Out → Bytes → Prop
  | .record dt _, kek => Wraps P keys conf dt kek
  | .token _, kek => kek = keys.tek ∨ kek = conf.tek
  | .password _, _ => False

/-- What is made of which random answers. -/
def MadeFrom (P : Prims) (keys : Keys) (conf : StandaloneConfig) : Out → List Bytes → Prop
  | .record dt b, us => ∃ k n, us = [k, n] ∧ SealedIn P b k n ∧ (dt = dtObject ∨ ∃ kek, Wraps P keys conf dt kek ∧ KeyIn P kek b k)
  | .token s, us => ∃ b k n, b64Dec true s = some b ∧ us = [k, n] ∧ SealedIn P b k n ∧ (KeyIn P keys.tek b k ∨ KeyIn P conf.tek b k)
  | .password s, us => ∃ r : Bytes, r.length = 32 ∧ us = [r] ∧ s = b64Enc true r

end D1.Spec
