import Mathlib.Probability.Distributions.Uniform
import Mathlib.Data.Set.Finite.List
import Verif.Model.Kwp
import Verif.Model.Kmac
/-!
# Games

Probabilities, adversaries with an oracle, and the games that say what is expected of the key wrapping, of AES-GCM and of the
key derivation.
-/
namespace D1

instance : Finite UInt8 := Finite.of_injective UInt8.toFin fun _ _ h => UInt8.toFin_inj.mp h

instance (n : Nat) : Finite (BytesN n) := List.finite_length_eq UInt8 n

instance (n : Nat) : Nonempty (BytesN n) := ⟨⟨List.replicate n 0, by simp⟩⟩

/-- `n` uniformly distributed random bytes. -/
noncomputable def unif (n : Nat) : PMF (BytesN n) :=
  letI := Fintype.ofFinite (BytesN n)
  PMF.uniformOfFintype (BytesN n)

/-- The probability of `true`. -/
noncomputable def chance (p : PMF Bool) : ℝ := (p true).toReal

/-- How well `true` tells two experiments apart. -/
noncomputable def gap (p q : PMF Bool) : ℝ := |chance p - chance q|

/-- An adversary with an oracle: it ends with a guess, draws random bytes, or asks the oracle a question `q`, to which the
answers are of type `R q`. -/
inductive OAdv (Q : Type) (R : Q → Type) where
  | done (guess : Bool)
  | toss (n : Nat) (k : BytesN n → OAdv Q R)
  | ask (q : Q) (k : R q → OAdv Q R)

/-- The guess of an adversary.  The oracle answers a question in a state, and goes to another state. -/
noncomputable def OAdv.play {Q S : Type} {R : Q → Type} (oracle : (q : Q) → S → PMF (R q × S)) : OAdv Q R → S → PMF Bool
  | .done b, _ => PMF.pure b
  | .toss n k, s => (unif n).bind fun x => (k x).play oracle s
  | .ask q k, s => (oracle q s).bind fun r => (k r.1).play oracle r.2

/-- The adversary asks at most `n` questions. -/
def OAdv.Asks {Q : Type} {R : Q → Type} : Nat → OAdv Q R → Prop
  | _, .done _ => True
  | n, .toss _ k => ∀ x, (k x).Asks n
  | 0, .ask _ _ => False
  | n + 1, .ask _ k => ∀ r, (k r).Asks n

/-! ## Key wrapping

The oracle hands out fresh random keys with their wrappings, and unwraps; or it hands out the wrappings of other random keys
instead, and unwraps only these, to the keys they were handed out with. -/

/-- `Wrap` for keys of 32 bytes, where it does not fail. -/
def wrapped (P : Prims) (kek key : BytesN 32) : Bytes :=
  match kwpWrap P kek.1 key.1 with
  | .ok w => w
  | .error _ => []

inductive WrapAsk where
  | fresh
  | unwrap (w : Bytes)

def WrapAsk.Ans : WrapAsk → Type
  | .fresh => BytesN 32 × Bytes
  | .unwrap _ => Except Err Bytes

noncomputable def wrapReal (P : Prims) (kek : BytesN 32) : (q : WrapAsk) → Unit → PMF (q.Ans × Unit)
  | .fresh, _ => (unif 32).bind fun key => PMF.pure ((key, wrapped P kek key), ())
  | .unwrap w, _ => PMF.pure (kwpUnwrap P kek.1 w, ())

noncomputable def wrapIdeal (P : Prims) (kek : BytesN 32) :
    (q : WrapAsk) → List (Bytes × BytesN 32) → PMF (q.Ans × List (Bytes × BytesN 32))
  | .fresh, T => (unif 32).bind fun key => (unif 32).bind fun other =>
      PMF.pure ((key, wrapped P kek other), (wrapped P kek other, key) :: T)
  | .unwrap w, T => PMF.pure (match T.lookup w with | some key => .ok key.1 | none => .error .kwp, T)

/-- The advantage of an adversary against the key wrapping, for a random wrapping key. -/
noncomputable def wrapGap (P : Prims) (A : OAdv WrapAsk WrapAsk.Ans) : ℝ :=
  gap ((unif 32).bind fun kek => A.play (wrapReal P kek) ()) ((unif 32).bind fun kek => A.play (wrapIdeal P kek) [])

/-! ## AES-GCM

The oracle encrypts one of two messages of the same length, with a fresh random key and nonce each time.  It also decrypts
with each of these keys, but not the ciphertext that it made with that key. -/

structure SealQuery where
  left : Bytes
  right : Bytes
  aad : Bytes
  fair : left.length = right.length

inductive SealAsk where
  | seal (q : SealQuery)
  | open (j : Nat) (nonce aad ct : Bytes)

def SealAsk.Ans : SealAsk → Type
  | .seal _ => BytesN 12 × Bytes
  | .open _ _ _ _ => Option Bytes

/-- What the oracle remembers of an encryption. -/
structure SealRec where
  key : BytesN 32
  nonce : Bytes
  aad : Bytes
  ct : Bytes

noncomputable def sealOracle (P : Prims) (right : Bool) : (q : SealAsk) → List SealRec → PMF (q.Ans × List SealRec)
  | .seal q, s => (unif 32).bind fun key => (unif 12).bind fun nonce =>
      let ct := P.gcmSeal key.1 nonce.1 q.aad (if right then q.right else q.left)
      PMF.pure ((nonce, ct), s ++ [⟨key, nonce.1, q.aad, ct⟩])
  | .open j nonce aad ct, s => PMF.pure (match s[j]? with
      | none => none
      | some e => if e.nonce = nonce ∧ e.aad = aad ∧ e.ct = ct then none else P.gcmOpen e.key.1 nonce aad ct, s)

/-- The advantage of an adversary against AES-GCM with one-time keys. -/
noncomputable def sealGap (P : Prims) (A : OAdv SealAsk SealAsk.Ans) : ℝ :=
  gap (A.play (sealOracle P false) []) (A.play (sealOracle P true) [])

/-! ### Forgeries

The oracle encrypts a message with a fresh random key and nonce each time, and decrypts with these keys what it did not
encrypt; or it decrypts nothing. -/

inductive ForgeAsk where
  | seal (message aad : Bytes)
  | open (j : Nat) (nonce aad ct : Bytes)

def ForgeAsk.Ans : ForgeAsk → Type
  | .seal _ _ => BytesN 12 × Bytes
  | .open _ _ _ _ => Option Bytes

noncomputable def forgeOracle (P : Prims) (real : Bool) : (q : ForgeAsk) → List SealRec → PMF (q.Ans × List SealRec)
  | .seal m aad, s => (unif 32).bind fun key => (unif 12).bind fun nonce =>
      let ct := P.gcmSeal key.1 nonce.1 aad m
      PMF.pure ((nonce, ct), s ++ [⟨key, nonce.1, aad, ct⟩])
  | .open j nonce aad ct, s => PMF.pure (match s[j]? with
      | none => none
      | some e => if e.nonce = nonce ∧ e.aad = aad ∧ e.ct = ct then none
        else if real then P.gcmOpen e.key.1 nonce aad ct else none, s)

/-- The advantage of a forger against AES-GCM with one-time keys. -/
noncomputable def forgeGap (P : Prims) (A : OAdv ForgeAsk ForgeAsk.Ans) : ℝ :=
  gap (A.play (forgeOracle P true) []) (A.play (forgeOracle P false) [])

/-! ## Key derivation

The oracle derives keys from a random key, or answers new questions with random bytes and old ones as before. -/

/-- `KMACKDF` with a label and one piece of context, for 32 bytes, where it does not panic. -/
def derived (P : Prims) (key : BytesN 32) (q : Bytes × Bytes) : Bytes := (kmacKdf P 32 key.1 q.1 [q.2]).getD []

noncomputable def kdfReal (P : Prims) (key : BytesN 32) : Bytes × Bytes → Unit → PMF (Bytes × Unit) :=
  fun q _ => PMF.pure (derived P key q, ())

noncomputable def kdfRandom : Bytes × Bytes → List ((Bytes × Bytes) × Bytes) → PMF (Bytes × List ((Bytes × Bytes) × Bytes)) :=
  fun q T => match T.lookup q with
    | some r => PMF.pure (r, T)
    | none => (unif 32).bind fun r => PMF.pure (r.1, (q, r.1) :: T)

/-- The advantage of an adversary against the key derivation, for a random key. -/
noncomputable def kdfGap (P : Prims) (A : OAdv (Bytes × Bytes) fun _ => Bytes) : ℝ :=
  gap ((unif 32).bind fun key => A.play (kdfReal P key) ()) (A.play kdfRandom [])

end D1
