import Verif.Spec.Spy
import Verif.Spec.Directory
/-!
# A game about passwords

As in `Spec/Spy.lean` the adversary is the IO Provider and the clock, decides which programs are begun and how their steps are
interleaved, and sees all requests.  A random key is drawn that only the calls know.  The passwords that calls return are
kept from the adversary, until it asks for one.  It can order calls with a password of its own, and calls with a password that
is kept from it.  It wins if a call that takes a password succeeds with a password of its own, which is none that it was told.
-/
namespace D1
open Prog Spec

/-- What the adversary sees: a request of a program with the answer it gave, the result of a program, or the password that a
program returned. -/
inductive Glimpse (M : Type) where
  | request (j : Nat) (ev : Event)
  | result (j : Nat) (o : Outcome M)
  | told (j : Nat) (password : GoString)

/-- What the adversary can do next: order a call, as it is or with the password that program `source` returned; have another
program begun that does not know the key; let a program go on until its next request; be told the password that a program
returned; or stop. -/
inductive Deed (M : Type) where
  | order (c : DirCall) (source : Option Nat)
  | other (p : Prog M)
  | step (j : Nat)
  | reveal (j : Nat)
  | stop

/-- An adversary; for its next move it also looks at the number of moves that are left after it. -/
structure Thief (M : Type) where
  answer : List (Glimpse M) → (e : Eff) → e.Resp
  move : Nat → List (Glimpse M) → Deed M

/-- The password that a call takes. -/
def passwordOf : DirCall → Option GoString
  | .loginUser _ p | .changePassword _ p => some p
  | _ => none

/-- The same call with another password. -/
def withPassword (p : GoString) : DirCall → DirCall
  | .loginUser u _ => .loginUser u p
  | .changePassword u _ => .changePassword u p
  | c => c

/-- Two passwords with the same hash. -/
def Rivals (P : Prims) (p q : GoString) : Prop := ∃ salt, P.pbkdf2 p salt = P.pbkdf2 q salt

/-- Program `j` is a call with a password of the adversary's own, which has not the hash of one that it was told.  `cs` are the
programs that were begun; `none` is another program, or a call with a password that is kept. -/
def Stolen {M : Type} (P : Prims) (cs : List (Option DirCall)) (v : List (Glimpse M)) (j : Nat) : Prop :=
  ∃ c p, cs[j]? = some (some c) ∧ passwordOf c = some p ∧ ∀ i q, .told i q ∈ v → ¬Rivals P p q

/-- What the adversary sees of an outcome. -/
def overt {M α : Type} : Outcome (M × α) → Outcome M
  | .ok r => .ok r.1
  | .err e => .err e
  | .panic => .panic
  | .diverge => .diverge

/-- What is kept of an outcome. -/
def keptBy {M : Type} (j : Nat) : Outcome (M × Option GoString) → List (Nat × GoString)
  | .ok (_, some p) => [(j, p)]
  | _ => []

open Classical in
/-- `n` moves of the adversary, and whether it wins.  `kept` are the passwords that were returned. -/
noncomputable def Thief.play {M : Type} (A : Thief M) (P : Prims) (prog : DirCall → Prog (M × Option GoString)) :
    Nat → List (Option DirCall) → List (Nat × GoString) → List (Glimpse M) → List (Prog (M × Option GoString)) → PMF Bool
  | 0, _, _, _, _ => PMF.pure false
  | n + 1, cs, kept, v, ps =>
    match A.move n v with
    | .stop => PMF.pure false
    | .order c none => A.play P prog n (cs ++ [some c]) kept v (ps ++ [prog c])
    | .order c (some i) =>
      match kept.lookup i with
      | none => A.play P prog n cs kept v ps
      | some p => A.play P prog n (cs ++ [none]) kept v (ps ++ [prog (withPassword p c)])
    | .other p => A.play P prog n (cs ++ [none]) kept v (ps ++ [p.bind fun m => .ret (m, none)])
    | .reveal i =>
      match kept.lookup i with
      | none => A.play P prog n cs kept v ps
      | some p => A.play P prog n cs kept (v ++ [.told i p]) ps
    | .step j =>
      match ps[j]? with
      | none => A.play P prog n cs kept v ps
      | some p => (settle p).bind fun q =>
        match nextStep q with
        | .inl o => if (∃ r, o = .ok r) ∧ Stolen P cs v j then PMF.pure true
          else A.play P prog n cs (keptBy j o ++ kept) (v ++ [.result j (overt o)]) (ps.set j q)
        | .inr ⟨e, k⟩ => A.play P prog n cs kept (v ++ [.request j ⟨e, A.answer v e⟩]) (ps.set j (k (A.answer v e)))

/-- The game: a random key, and `n` moves. -/
noncomputable def thiefGame {M : Type} (P : Prims) (prog : BytesN 32 → DirCall → Prog (M × Option GoString)) (A : Thief M) (n : Nat) :
    PMF Bool :=
  (unif 32).bind fun key => A.play P (prog key) n [] [] [] []

/-- How likely a random password has the hash of a given one. -/
noncomputable def luck (P : Prims) (p : GoString) (salt : Bytes) : ℝ :=
  chance ((unif passwordLength).bind fun b => PMF.pure (decide (P.pbkdf2 (b64Enc true b.1) salt = P.pbkdf2 p salt)))

end D1
