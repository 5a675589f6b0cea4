import Verif.Spec.Games
import Verif.Model.Prog
/-!
# A game about programs

The adversary is the IO Provider and the clock: it answers every request as it likes, and sees everything that is sent to
it.  It also decides which programs are begun, and in which order their steps are taken, any number of programs at the same
time, and it sees what they answer.  A random key is drawn that only the programs of the challenges know.  A challenge can
name a pair of plaintexts, of which one is used.  The only thing the adversary does not see are results that are among the
plaintexts that it named, where the two were different.
-/
namespace D1
open Prog

/-- What a program tells: a plaintext that it read, with its associated data, or something else.  `hidden` is shown in place
of a plaintext. -/
inductive Reply (R : Type) where
  | plain (r : R)
  | opened (p ad : NBytes)
  | hidden (ad : NBytes)

/-- Hide plaintexts among those that were named. -/
def Reply.masked {R : Type} (h : List (NBytes × NBytes)) : Reply R → Reply R
  | .opened p ad => if h.any fun x => x.1 ≠ x.2 && (p = x.1 || p = x.2) then .hidden ad else .opened p ad
  | t => t

def maskOutcome {R : Type} (h : List (NBytes × NBytes)) : Outcome (Reply R) → Outcome (Reply R)
  | .ok t => .ok (t.masked h)
  | o => o

/-- What the adversary can do next: have a challenge begun, have a program begun that does not know the key, let a program
go on until its next request, or stop. -/
inductive Move (X R : Type) where
  | begin (x : X)
  | other (p : Prog R)
  | step (j : Nat)
  | stop

/-- What the adversary sees: a request of a program with the answer it gave, or the result of a program. -/
inductive Sight (R : Type) where
  | request (j : Nat) (ev : Event)
  | result (j : Nat) (o : Outcome R)

/-- An adversary; for its next move it also looks at the number of moves that are left after it. -/
structure Spy (X R : Type) where
  answer : List (Sight R) → (e : Eff) → e.Resp
  move : Nat → List (Sight R) → Move X R
  guess : List (Sight R) → Bool

/-- A program draws its random bytes as soon as it needs them. -/
noncomputable def settle {α : Type} : Prog α → PMF (Prog α)
  | .op (.rand n) k => (unif n).bind fun b => settle (k (some b : Option (BytesN n)))
  | p => PMF.pure p

/-- What a program that has drawn its random bytes does next. -/
def nextStep {α : Type} : Prog α → Outcome α ⊕ ((e : Eff) × (e.Resp → Prog α))
  | .ret a => .inl (.ok a)
  | .err e => .inl (.err e)
  | .panic => .inl .panic
  | .diverge => .inl .diverge
  | .op e k => .inr ⟨e, k⟩

/-- The challenges: the plaintexts they name, and their programs. -/
structure Challenges (X R : Type) where
  pairs : X → List (NBytes × NBytes)
  prog : X → Prog (Reply R)

/-- `n` moves of the adversary. -/
noncomputable def Spy.run {X R : Type} (A : Spy X (Reply R)) (C : Challenges X R) :
    Nat → List (NBytes × NBytes) → List (Sight (Reply R)) → List (Prog (Reply R)) → PMF (List (Sight (Reply R)))
  | 0, _, v, _ => PMF.pure v
  | n + 1, h, v, ps =>
    match A.move n v with
    | .stop => PMF.pure v
    | .begin x => (settle (C.prog x)).bind fun p => A.run C n (C.pairs x ++ h) v (ps ++ [p])
    | .other p => (settle p).bind fun p => A.run C n h v (ps ++ [p])
    | .step j =>
      match ps[j]? with
      | none => A.run C n h v ps
      | some p =>
        match nextStep p with
        | .inl o => A.run C n h (v ++ [.result j (maskOutcome h o)]) ps
        | .inr ⟨e, k⟩ => (settle (k (A.answer v e))).bind fun p =>
            A.run C n h (v ++ [.request j ⟨e, A.answer v e⟩]) (ps.set j p)

/-- The game: a random key, `n` moves, and the guess. -/
noncomputable def spyGame {X R : Type} (C : BytesN 32 → Challenges X R) (A : Spy X (Reply R)) (n : Nat) : PMF Bool :=
  (unif 32).bind fun key => (A.run (C key) n [] [] []).map A.guess

end D1
