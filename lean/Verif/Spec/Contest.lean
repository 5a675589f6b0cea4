import Verif.Spec.Spy
/-!
# A game about names

As in `Spec/Spy.lean` the adversary is the IO Provider and the clock, decides which programs are begun and how their steps are
interleaved, and sees all requests and all results.  Each challenge that it proposes has two sides, which differ in names, and
in one game the same side is taken of all challenges.  A challenge is begun only if it is fair after those before it.  Results
of challenges are shown in a way that makes up for the difference of the names, which depends on the challenges so far.
-/
namespace D1
open Prog

/-- What becomes of a result. -/
def Outcome.map {α β : Type} (f : α → β) : Outcome α → Outcome β
  | .ok a => .ok (f a)
  | .err e => .err e
  | .panic => .panic
  | .diverge => .diverge

/-- One side of a game: which challenges are fair after others, and their programs. -/
structure Contest (X R : Type) where
  fair : List X → X → Prop
  prog : X → Prog (List X → R)

open Classical in
/-- `n` moves of the adversary, and its guess.  Programs that are no challenges do not know the key. -/
noncomputable def Spy.contest {X R : Type} (A : Spy X R) (C : Contest X R) :
    Nat → List X → List (Sight R) → List (Prog (List X → R)) → PMF Bool
  | 0, _, v, _ => PMF.pure (A.guess v)
  | n + 1, xs, v, ps =>
    match A.move n v with
    | .stop => PMF.pure (A.guess v)
    | .begin x => if C.fair xs x then A.contest C n (xs ++ [x]) v (ps ++ [C.prog x]) else A.contest C n xs v ps
    | .other p => A.contest C n xs v (ps ++ [p.bind fun r => .ret fun (_ : List X) => r])
    | .step j =>
      match ps[j]? with
      | none => A.contest C n xs v ps
      | some p => (settle p).bind fun q =>
        match nextStep q with
        | .inl o => A.contest C n xs (v ++ [.result j (o.map fun r => r xs)]) (ps.set j q)
        | .inr ⟨e, k⟩ => A.contest C n xs (v ++ [.request j ⟨e, A.answer v e⟩]) (ps.set j (k (A.answer v e)))

/-- The game: a random key, `n` moves, and the guess. -/
noncomputable def contestGame {X R : Type} (C : BytesN 32 → Contest X R) (A : Spy X R) (n : Nat) : PMF Bool :=
  (unif 32).bind fun key => A.contest (C key) n [] [] []

end D1
