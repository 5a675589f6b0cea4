import Verif.Spec.Spy
/-!
# A game about results

As in `Spec/Spy.lean` the adversary is the IO Provider and the clock, decides which programs are begun and how their steps are
interleaved, and sees all requests and all results.  A random key is drawn that only the challenges know.  The adversary wins
if a challenge has a result that it should not have, or makes a request that it should not make.
-/
namespace D1
open Prog

/-- Which results and requests there should be.  Facts of type `F` are brought about by challenges: `brings x f H` says that
challenge `x` has brought about `f` when `H` are the requests that it has made and the outcome that it has had.  `needs x s D`
says that challenge `x` should have result `s`, or make the request `s`, only if there is a fact of the kind `D`. -/
structure Terms (X R F : Type) where
  brings : X → F → (Outcome R ⊕ Eff → Prop) → Prop
  needs : X → R ⊕ Eff → (F → Prop) → Prop

/-- What program `i` has shown so far: requests and its outcome. -/
def Shown {R : Type} (v : List (Sight R)) (i : Nat) : Outcome R ⊕ Eff → Prop
  | .inl o => .result i o ∈ v
  | .inr e => ∃ r, .request i ⟨e, r⟩ ∈ v

/-- The fact was brought about by a challenge. -/
def Terms.Vouched {X R F : Type} (t : Terms X R F) (cs : List (Option X)) (v : List (Sight R)) (f : F) : Prop :=
  ∃ i x, cs[i]? = some (some x) ∧ t.brings x f (Shown v i)

/-- Program `j` should not have the result or make the request `s`. -/
def Terms.Unfounded {X R F : Type} (t : Terms X R F) (cs : List (Option X)) (v : List (Sight R)) (j : Nat) (s : R ⊕ Eff) : Prop :=
  ∃ x D, cs[j]? = some (some x) ∧ t.needs x s D ∧ ¬∃ f, D f ∧ t.Vouched cs v f

open Classical in
/-- `n` moves of the adversary, and whether it wins.  In a step a program draws random bytes and makes its next request, which
the adversary answers. -/
noncomputable def Spy.trial {X R F : Type} (A : Spy X R) (prog : X → Prog R) (t : Terms X R F) :
    Nat → List (Option X) → List (Sight R) → List (Prog R) → PMF Bool
  | 0, _, _, _ => PMF.pure false
  | n + 1, cs, v, ps =>
    match A.move n v with
    | .stop => PMF.pure false
    | .begin x => A.trial prog t n (cs ++ [some x]) v (ps ++ [prog x])
    | .other p => A.trial prog t n (cs ++ [none]) v (ps ++ [p])
    | .step j =>
      match ps[j]? with
      | none => A.trial prog t n cs v ps
      | some p => (settle p).bind fun q =>
        match nextStep q with
        | .inl o => if ∃ r, o = .ok r ∧ t.Unfounded cs v j (.inl r) then PMF.pure true
          else A.trial prog t n cs (v ++ [.result j o]) (ps.set j q)
        | .inr ⟨e, k⟩ => if t.Unfounded cs v j (.inr e) then PMF.pure true
          else A.trial prog t n cs (v ++ [.request j ⟨e, A.answer v e⟩]) (ps.set j (k (A.answer v e)))

/-- The game: a random key, and `n` moves. -/
noncomputable def trialGame {X R F : Type} (prog : BytesN 32 → X → Prog R) (t : Terms X R F) (A : Spy X R) (n : Nat) : PMF Bool :=
  (unif 32).bind fun key => A.trial (prog key) t n [] [] []

end D1
