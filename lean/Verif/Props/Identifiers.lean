import Verif.Proofs.Mirror
import Verif.Props.KeywordGame
import Verif.Props.IndexLinear
/-!
# C105: the identifiers of the index are secret

As in C97 the adversary is the IO Provider and the clock, decides which calls of the index are made and how their steps are
interleaved, and sees all requests and all results.  It does not know the index key.  For each `Add` and each `Delete` it
proposes two identifiers, such that for one keyword the same identifier is proposed again on one side whenever it is on the
other, and in all calls of one game the left ones are taken, or the right ones.  The identifiers that `Search` finds are shown
by their left names.  It has to tell which side was taken.
-/
namespace D1
open Spec Prog

/-! ## Specification -/

/-- The identifier that a call takes. -/
def _root_.D1.Spec.IxCall.identifier : IxCall → Option GoString
  | .add _ _ id | .delete _ _ id => some id
  | .search _ _ => none

/-- The same call with another identifier. -/
def _root_.D1.Spec.IxCall.withIdentifier : IxCall → GoString → IxCall
  | .add t kw _, id => .add t kw id
  | .delete t kw _, id => .delete t kw id
  | c, _ => c

/-- A result with other names. -/
def _root_.D1.Spec.IxRes.renamed (f : GoString → GoString) : IxRes → IxRes
  | .ids l => .ids (l.map f)
  | .unit => .unit

/-- A call, and the identifier of the right side. -/
abbrev IdCall : Type := IxCall × GoString

/-- The identifiers that were proposed together for a keyword. -/
def idPairs (xs : List IdCall) (kw : GoString) : List (GoString × GoString) :=
  xs.filterMap fun x => if x.1.keyword = kw then x.1.identifier.map fun id => (id, x.2) else none

/-- What can be proposed: two identifiers of which either both are old and were proposed together, or both are new; to be added,
they have to be valid text, and equally long in JSON. -/
structure FairId (xs : List IdCall) (x : IdCall) : Prop where
  paired : ∀ id, x.1.identifier = some id → Paired (idPairs xs x.1.keyword) id x.2 = true
  text : x.1.isAdd = true → ∀ id, x.1.identifier = some id →
    sanitize id = id ∧ sanitize x.2 = x.2 ∧ (renderStr id).length = (renderStr x.2).length

/-- The left name. -/
def leftName (h : List (GoString × GoString)) (r : GoString) : GoString :=
  match h.find? fun p => p.2 = r with
  | some p => p.1
  | none => r

/-- The call that is made. -/
def idCall (right : Bool) (x : IdCall) : IxCall := if right then x.1.withIdentifier x.2 else x.1

/-- What is shown of a result. -/
def idShown {R : Type} (report : IxRes → R) (right : Bool) (x : IdCall) (r : IxRes) (xs : List IdCall) : R :=
  report (if right then r.renamed (leftName (idPairs xs x.1.keyword)) else r)

/-- The calls of one side. -/
def idContest {R : Type} (P : Prims) (i : SecureIndex) (fuel : Nat) (report : IxRes → R) (right : Bool) (key : BytesN 32) :
    Contest IdCall R where
  fair := FairId
  prog x := (ixProg P (i.withKey key) fuel (idCall right x)).bind fun r => .ret (idShown report right x r)

/-! ## The game as questions for keys -/

open Classical in
/-- The game, in which keys are asked for. -/
noncomputable def Spy.askTree {X R : Type} (A : Spy X R) (fair : List X → X → Prop) (q : List X → X → Bytes)
    (body : List X → Bytes → Bytes → X → Prog (List X → R)) :
    Nat → List X → List (Sight R) → List (Prog (List X → R)) → OAdv (Bytes × Bytes) fun _ => Bytes
  | 0, _, v, _ => .done (A.guess v)
  | n + 1, xs, v, ps =>
    match A.move n v with
    | .stop => .done (A.guess v)
    | .begin x => if fair xs x then .ask (labelLabel, q xs x) fun k1 => .ask (labelId, q xs x) fun k2 =>
        A.askTree fair q body n (xs ++ [x]) v (ps ++ [body xs k1 k2 x])
      else A.askTree fair q body n xs v ps
    | .other p => A.askTree fair q body n xs v (ps ++ [p.bind fun r => .ret fun (_ : List X) => r])
    | .step j =>
      match ps[j]? with
      | none => A.askTree fair q body n xs v ps
      | some p => tosses p fun p' =>
        match nextStep p' with
        | .inl o => A.askTree fair q body n xs (v ++ [.result j (o.map fun r => r xs)]) (ps.set j p')
        | .inr ⟨e, k⟩ => A.askTree fair q body n xs (v ++ [.request j ⟨e, A.answer v e⟩]) (ps.set j (k (A.answer v e)))

theorem play_ask {X R : Type} (oracle : Bytes × Bytes → Bytes) (kw : X → Bytes) (body : Bytes → Bytes → X → Prog (List X → R))
    (C : Contest X R) (hC : ∀ x, C.prog x = body (oracle (labelLabel, kw x)) (oracle (labelId, kw x)) x) (A : Spy X R) :
    ∀ (n : Nat) (xs : List X) (v : List (Sight R)) (ps : List (Prog (List X → R))),
      (A.askTree C.fair (fun _ => kw) (fun _ => body) n xs v ps).play (fun q _ => PMF.pure (oracle q, ())) () = A.contest C n xs v ps := by
  intro n
  induction n with
  | zero => intros; rfl
  | succ n ih =>
    intro xs v ps
    simp only [Spy.askTree, Spy.contest]
    cases A.move n v with
    | stop => rfl
    | begin x =>
      dsimp only
      by_cases hf : C.fair xs x
      · rw [if_pos hf, if_pos hf, hC]
        simp only [OAdv.play, PMF.pure_bind]
        exact ih _ _ _
      · rw [if_neg hf, if_neg hf]
        exact ih _ _ _
    | other p => exact ih _ _ _
    | step j =>
      dsimp only
      cases ps[j]? with
      | none => exact ih _ _ _
      | some p =>
        refine play_tosses _ _ _ _ (fun p' => ?_) _
        cases nextStep p' with
        | inl o => exact ih _ _ _
        | inr x => exact ih _ _ _

/-! ## Numbers in place of keywords -/

/-- A keyword is the number of the first call about it. -/
def place (xs : List IdCall) (x : IdCall) : Nat := (xs.map (·.1.keyword)).idxOf x.1.keyword

def numeral (n : Nat) : Bytes := List.replicate n 0

theorem numeral_inj {n m : Nat} (h : numeral n = numeral m) : n = m := by simpa [numeral] using congrArg List.length h

theorem place_le (xs : List IdCall) (x : IdCall) : place xs x ≤ xs.length := by
  have := List.idxOf_le_length (l := xs.map (·.1.keyword)) (a := x.1.keyword)
  simpa [place] using this

theorem place_here (xs : List IdCall) (x : IdCall) : ∃ z, (xs ++ [x])[place xs x]? = some z ∧ z.1.keyword = x.1.keyword := by
  by_cases h : x.1.keyword ∈ xs.map (·.1.keyword)
  · have hl : place xs x < xs.length := by simpa [place] using List.idxOf_lt_length_of_mem h
    refine ⟨xs[place xs x], ?_, ?_⟩
    · rw [List.getElem?_append_left hl, List.getElem?_eq_getElem hl]
    · have := List.getElem_idxOf (xs := xs.map (·.1.keyword)) (x := x.1.keyword) (by simpa [place] using hl)
      rw [List.getElem_map] at this
      exact this
  · have hl : place xs x = xs.length := by
      have := List.idxOf_eq_length h
      simpa [place] using this
    exact ⟨x, by simp [hl], rfl⟩

theorem play_numbered {R : Type} (body : List IdCall → Bytes → Bytes → IdCall → Prog (List IdCall → R)) (A : Spy IdCall R)
    (fair : List IdCall → IdCall → Prop) :
    ∀ (n : Nat) (xs : List IdCall) (v : List (Sight R)) (ps : List (Prog (List IdCall → R))) (h : List (GoString × GoString))
      (T U : List ((Bytes × Bytes) × Bytes)), SameTables h T U →
      (∀ p ∈ h, p.1 ∈ xs.map (·.1.keyword) ∧ p.2 = numeral ((xs.map (·.1.keyword)).idxOf p.1)) →
      (A.askTree fair (fun _ x => x.1.keyword) body n xs v ps).play kdfRandom T =
        (A.askTree fair (fun xs x => numeral (place xs x)) body n xs v ps).play kdfRandom U := by
  intro n
  induction n with
  | zero => intros; rfl
  | succ n ih =>
    intro xs v ps h T U hs hh
    simp only [Spy.askTree]
    cases A.move n v with
    | stop => rfl
    | begin x =>
      dsimp only
      by_cases hf : fair xs x
      · rw [if_pos hf, if_pos hf]
        have hp : Paired h x.1.keyword (numeral (place xs x)) = true := by
          refine List.all_eq_true.mpr fun p hp => ?_
          obtain ⟨h1, h2⟩ := hh p hp
          have : p.1 = x.1.keyword ↔ p.2 = numeral (place xs x) := by
            rw [h2]
            constructor
            · intro e; rw [e]; rfl
            · intro e
              exact (List.idxOf_inj h1).mp (numeral_inj e)
          simp [this]
        refine random_ask (hs.pair hp) (by simp) _ fun k1 T U hs => ?_
        refine random_ask hs (by simp) _ fun k2 T U hs => ?_
        refine ih _ _ _ _ _ _ hs fun p hp => ?_
        rcases List.mem_cons.mp hp with rfl | hp
        · refine ⟨by simp, congrArg numeral ?_⟩
          rw [List.map_append]
          by_cases hm : x.1.keyword ∈ xs.map (·.1.keyword)
          · rw [List.idxOf_append_of_mem hm]; rfl
          · rw [List.idxOf_append_of_notMem hm, place, List.idxOf_eq_length hm]
            simp
        · obtain ⟨h1, h2⟩ := hh p hp
          rw [List.map_append]
          refine ⟨List.mem_append_left _ h1, ?_⟩
          rw [List.idxOf_append_of_mem h1]
          exact h2
      · rw [if_neg hf, if_neg hf]
        exact ih _ _ _ _ _ _ hs hh
    | other p => exact ih _ _ _ _ _ _ hs hh
    | step j =>
      dsimp only
      cases ps[j]? with
      | none => exact ih _ _ _ _ _ _ hs hh
      | some p =>
        refine random_tosses _ (fun p' => ?_) _
        cases nextStep p' with
        | inl o => exact ih _ _ _ _ _ _ hs hh
        | inr x => exact ih _ _ _ _ _ _ hs hh

/-! ## One key is drawn before the others -/

theorem play_lookup (t : OAdv (Bytes × Bytes) fun _ => Bytes) : ∀ {T U : List ((Bytes × Bytes) × Bytes)},
    (∀ q, T.lookup q = U.lookup q) → t.play kdfRandom T = t.play kdfRandom U := by
  induction t with
  | done b => intros; rfl
  | toss n k ih => intro T U h; simp only [OAdv.play]; congr 1; funext x; exact ih x h
  | ask q k ih =>
    intro T U h
    simp only [OAdv.play, kdfRandom, h q]
    cases U.lookup q with
    | some r => simp only [PMF.pure_bind]; exact ih r h
    | none =>
      simp only [PMF.bind_bind, PMF.pure_bind]
      congr 1; funext r
      refine ih _ fun q' => ?_
      simp only [List.lookup_cons, h q']

theorem play_early (q : Bytes × Bytes) (t : OAdv (Bytes × Bytes) fun _ => Bytes) : ∀ {T : List ((Bytes × Bytes) × Bytes)},
    T.lookup q = none → t.play kdfRandom T = (unif 32).bind fun r => t.play kdfRandom (T ++ [(q, r.1)]) := by
  induction t with
  | done b => intros; simp only [OAdv.play, PMF.bind_const]
  | toss n k ih =>
    intro T h
    simp only [OAdv.play]
    rw [PMF.bind_comm]
    congr 1; funext x; exact ih x h
  | ask q' k ih =>
    intro T h
    simp only [OAdv.play, kdfRandom]
    by_cases e : q' = q
    · subst e
      simp only [h, List.lookup_append, List.lookup_cons, beq_self_eq_true, Option.none_or, PMF.bind_bind, PMF.pure_bind]
      congr 1; funext r
      refine play_lookup _ fun q => ?_
      by_cases hq : q = q'
      · subst hq; simp [List.lookup_append, h]
      · have : (q == q') = false := by simpa using hq
        simp [List.lookup_append, List.lookup_cons, this]
    · have hne : (q' == q) = false := by simpa using e
      have : ∀ r : Bytes, (T ++ [(q, r)]).lookup q' = T.lookup q' := fun r => by
        simp [List.lookup_append, List.lookup_cons, hne]
      simp only [this]
      cases T.lookup q' with
      | some r => simp only [PMF.pure_bind]; exact ih r h
      | none =>
        simp only [PMF.bind_bind, PMF.pure_bind]
        rw [PMF.bind_comm]
        congr 1; funext r
        have hne' : (q == q') = false := by simpa using Ne.symm e
        exact ih r.1 (T := (q', r.1) :: T) (by rw [List.lookup_cons, hne']; exact h)

/-- Look a key up, or draw it. -/
def drawKey {α : Type} (q : Bytes × Bytes) (s : List ((Bytes × Bytes) × Bytes)) (k : Bytes → List ((Bytes × Bytes) × Bytes) → Draw α) : Draw α :=
  match s.lookup q with
  | some r => k r s
  | none => .toss 32 fun r => k r.1 ((q, r.1) :: s)

theorem play_drawKey {α σ Q : Type} {S : Q → Type} {oracle : (q : Q) → σ → PMF (S q × σ)} {t : σ} {K : α → OAdv Q S}
    {q z : Bytes × Bytes} (hqz : q ≠ z) {kek : Bytes} {s : List ((Bytes × Bytes) × Bytes)} (hs : s.lookup z = none)
    {f : Bytes → List ((Bytes × Bytes) × Bytes) → Draw α} {k : Bytes → OAdv (Bytes × Bytes) fun _ => Bytes}
    (h : ∀ r s, s.lookup z = none → ((f r s).tree K).play oracle t = (k r).play kdfRandom (s ++ [(z, kek)])) :
    ((drawKey q s f).tree K).play oracle t = (OAdv.ask q k).play kdfRandom (s ++ [(z, kek)]) := by
  have hne : (q == z) = false := by simpa using hqz
  have hne' : (z == q) = false := by simpa using Ne.symm hqz
  have hl : (s ++ [(z, kek)]).lookup q = s.lookup q := by simp [List.lookup_append, List.lookup_cons, hne]
  simp only [OAdv.play, kdfRandom, hl, drawKey]
  cases s.lookup q with
  | some r => simp only [PMF.pure_bind]; exact h r s hs
  | none =>
    simp only [Draw.tree, OAdv.play, PMF.bind_bind, PMF.pure_bind]
    congr 1; funext r
    exact h r.1 _ (by rw [List.lookup_cons, hne']; exact hs)

/-! ## Calls with boxes -/

section
variable {R : Type} (P : Prims) (k1 : Bytes)

/-- How a loop goes on after the next node. -/
def branch (no : IProg R) (yes : Node → IProg R) : Except Err Node → IProg R
  | .error .nodeNotFound => no
  | .error e => .err e
  | .ok n => yes n

/-- The next node. -/
def nextI (c : Nat) (no : IProg R) (yes : Node → IProg R) : IProg R :=
  .after (Prog.ofPanic ((⟨[], c⟩ : Node).nextLabel P ⟨k1⟩)) fun label =>
    .after ((getSealedNode P label).attempt fun r => .ret r) fun r => match r with
      | .error e => branch no yes (.error e)
      | .ok sn => .unbox (J.ofBytes (some label)).render sn.wrappedKey.bytes sn.ciphertext.bytes fun r => branch no yes (readAs Node.ofJ r)

def lastI : Nat → Nat → (Nat → IProg R) → IProg R
  | 0, _, _ => .diverge
  | fuel + 1, c, k => nextI P k1 c (k c) fun n => lastI fuel n.nextCounter k

def searchI : Nat → Nat → List GoString → (List GoString → IProg R) → IProg R
  | 0, _, _, _ => .diverge
  | fuel + 1, c, l, k => nextI P k1 c (k l) fun n => searchI fuel n.nextCounter (l ++ [n.identifier]) k

/-- Seal a node and go on. -/
def nodeI (n : Node) (label : Bytes) (k : SealedNode → IProg R) : IProg R :=
  .box n.toJ (J.ofBytes (some label)).render fun r => k ⟨some r.2, some r.1⟩

def deleteNodeI (label : Bytes) (c : Nat) (k : IProg R) : IProg R :=
  nextI P k1 c (.after (deleteSealedNode label) fun _ => k) fun next => nodeI next label fun sn =>
    .after (putSealedNode label sn true) fun _ => .after (Prog.ofPanic ((⟨[], c⟩ : Node).nextLabel P ⟨k1⟩)) fun nextLabel =>
      .after (deleteSealedNode nextLabel) fun _ => k

def deleteI (id : GoString) : Nat → Nat → IProg R → IProg R
  | 0, _, _ => .diverge
  | fuel + 1, c, k => nextI P k1 c k fun n =>
    if n.identifier = id then .after (Prog.ofPanic ((⟨[], c⟩ : Node).nextLabel P ⟨k1⟩)) fun label =>
      deleteNodeI P k1 label n.nextCounter (deleteI id fuel c k)
    else deleteI id fuel n.nextCounter k

/-- A call of the index, given one key of its keyword. -/
def ixI (i : SecureIndex) (fuel : Nat) (k : IxRes → IProg R) : IxCall → IProg R
  | .add t _ id => .after (i.verifyAccess t) fun _ => lastI P k1 fuel 0 fun c =>
      .after (Prog.ofPanic ((⟨[], c⟩ : Node).nextLabel P ⟨k1⟩)) fun label => nodeI ⟨id, (c + 1) % 2 ^ 64⟩ label fun sn =>
        .after (putSealedNode label sn false) fun _ => k .unit
  | .search t _ => .after (i.verifyAccess t) fun _ => searchI P k1 fuel 0 [] fun l => k (.ids l)
  | .delete t _ id => .after (i.verifyAccess t) fun _ => deleteI P k1 id fuel 0 (k .unit)

end

section
variable {R : Type} {P : Prims} (L : P.Laws) {k1 : Bytes} (kek : BytesN 32)

theorem expand_branch (no : IProg R) (yes : Node → IProg R) (r : Except Err Node) : (branch no yes r).expand P kek =
    match r with
    | .error .nodeNotFound => no.expand P kek
    | .error e => .err e
    | .ok n => (yes n).expand P kek := by
  cases r with
  | ok n => rfl
  | error e => cases e <;> rfl

theorem attempt_ret_bind {α β : Type} (p : Prog α) (f : Except Err α → Prog β) : (p.attempt fun r => .ret r).bind f = p.attempt f := by
  rw [Prog.attempt_bind]; rfl

theorem expand_nextI (n : Node) (no : IProg R) (yes : Node → IProg R) : (nextI P k1 n.nextCounter no yes).expand P kek =
    (getNextNode P n ⟨k1⟩ ⟨kek.1⟩).attempt fun r => match r with
      | .error .nodeNotFound => no.expand P kek
      | .error e => .err e
      | .ok n => (yes n).expand P kek := by
  have hl : (⟨[], n.nextCounter⟩ : Node).nextLabel P ⟨k1⟩ = n.nextLabel P ⟨k1⟩ := rfl
  rw [nextI, IProg.expand_after, hl, getNextNode]
  simp only [Prog.bind_eq]
  cases n.nextLabel P ⟨k1⟩ with
  | none => rfl
  | some label =>
    simp only [Prog.ofPanic, Prog.ret_bind, IProg.expand_after, attempt_ret_bind, Prog.bind_attempt]
    congr 1; funext r
    cases r with
    | error e => exact expand_branch kek no yes _
    | ok sn =>
      simp only [IProg.expand, SealedNode.unseal, decrypt_unboxed, expand_branch]
      cases readAs Node.ofJ (unboxed P kek.1 (J.ofBytes (some label)).render sn.wrappedKey.bytes sn.ciphertext.bytes) with
      | error e => rfl
      | ok n => rfl

theorem expand_lastI (k : Nat → IProg R) : ∀ (fuel : Nat) (n : Node), (lastI P k1 fuel n.nextCounter k).expand P kek =
    (getLastNodeLoop P ⟨k1⟩ ⟨kek.1⟩ fuel n).bind fun last => (k last.nextCounter).expand P kek := by
  intro fuel
  induction fuel with
  | zero => intro n; rfl
  | succ fuel ih =>
    intro n
    rw [lastI, expand_nextI, getLastNodeLoop, Prog.attempt_bind]
    congr 1; funext r
    cases r with
    | ok n => exact ih n
    | error e => cases e <;> rfl

theorem expand_searchI (k : List GoString → IProg R) : ∀ (fuel : Nat) (n : Node) (l : List GoString),
    (searchI P k1 fuel n.nextCounter l k).expand P kek =
      (searchLoop P ⟨k1⟩ ⟨kek.1⟩ fuel n l).bind fun l => (k l).expand P kek := by
  intro fuel
  induction fuel with
  | zero => intro n l; rfl
  | succ fuel ih =>
    intro n l
    rw [searchI, expand_nextI, searchLoop, Prog.attempt_bind]
    congr 1; funext r
    cases r with
    | ok n => exact ih n _
    | error e => cases e <;> rfl

include L in
theorem expand_nodeI (n : Node) (label : Bytes) (k : SealedNode → IProg R) :
    (nodeI n label k).expand P kek = (n.seal P label ⟨kek.1⟩).bind fun sn => (k sn).expand P kek := by
  simp only [nodeI, IProg.expand, Node.seal, Cryptor.encrypt_eq L, Prog.bind_eq, Prog.pure_eq, Prog.bind_assoc, Prog.ret_bind]

include L in
theorem expand_deleteNodeI (label : Bytes) (n : Node) (k : IProg R) : (deleteNodeI P k1 label n.nextCounter k).expand P kek =
    (deleteNode P label n ⟨k1⟩ ⟨kek.1⟩).bind fun _ => k.expand P kek := by
  have hl : (⟨[], n.nextCounter⟩ : Node).nextLabel P ⟨k1⟩ = n.nextLabel P ⟨k1⟩ := rfl
  rw [deleteNodeI, expand_nextI, deleteNode, Prog.attempt_bind]
  congr 1; funext r
  cases r with
  | ok next => simp only [expand_nodeI L, IProg.expand_after, Prog.bind_eq, Prog.bind_assoc, hl]
  | error e =>
    cases e
    case nodeNotFound => simp only [IProg.expand_after]
    all_goals rfl

include L in
theorem expand_deleteI (id : GoString) (k : IProg R) : ∀ (fuel : Nat) (n : Node), (deleteI P k1 id fuel n.nextCounter k).expand P kek =
    (deleteLoop P ⟨k1⟩ ⟨kek.1⟩ id fuel n).bind fun _ => k.expand P kek := by
  intro fuel
  induction fuel with
  | zero => intro n; rfl
  | succ fuel ih =>
    intro n
    have hl : (⟨[], n.nextCounter⟩ : Node).nextLabel P ⟨k1⟩ = n.nextLabel P ⟨k1⟩ := rfl
    rw [deleteI, expand_nextI, deleteLoop, Prog.attempt_bind]
    congr 1; funext r
    cases r with
    | ok next =>
      by_cases hid : next.identifier = id
      · simp only [if_pos hid, IProg.expand_after, expand_deleteNodeI L, hl, ih, Prog.bind_eq, Prog.bind_assoc]
      · simp only [if_neg hid, ih]
    | error e => cases e <;> rfl

include L in
theorem expand_ixI (i : SecureIndex) (fuel : Nat) (k : IxRes → IProg R) (c : IxCall) : (ixI P k1 i fuel k c).expand P kek =
    (ixKeyed P i fuel k1 kek.1 c).bind fun r => (k r).expand P kek := by
  cases c with
  | add t kw id =>
    have h := fun k : Nat → IProg R => expand_lastI (P := P) (k1 := k1) kek k fuel zeroNode
    simp only [ixI, ixKeyed, IProg.expand_after, Prog.bind_assoc]
    refine congrArg (Prog.bind _) (funext fun _ => (h _).trans ?_)
    refine congrArg (Prog.bind _) (funext fun last => ?_)
    have hl : (⟨[], last.nextCounter⟩ : Node).nextLabel P ⟨k1⟩ = last.nextLabel P ⟨k1⟩ := rfl
    simp only [IProg.expand_after, expand_nodeI L, hl, Prog.ret_bind]
  | search t kw =>
    have h := fun k : List GoString → IProg R => expand_searchI (P := P) (k1 := k1) kek k fuel zeroNode []
    simp only [ixI, ixKeyed, IProg.expand_after, Prog.bind_assoc]
    exact congrArg (Prog.bind _) (funext fun _ => h _)
  | delete t kw id =>
    have h := expand_deleteI L (k1 := k1) kek id (k .unit) fuel zeroNode
    simp only [ixI, ixKeyed, IProg.expand_after, Prog.bind_assoc]
    exact congrArg (Prog.bind _) (funext fun _ => h)

end

/-! ## Both sides do the same -/

/-- Identifiers that are used together in calls about the keyword with a number. -/
def Peers (i : Nat) (ys : List IdCall) (l r : GoString) : Prop := ∃ z, ys[i]? = some z ∧ (l, r) ∈ idPairs ys z.1.keyword

/-- Nodes with such identifiers. -/
def NodePeers (i : Nat) (ys : List IdCall) (m m' : J) : Prop := ∃ l r c, Peers i ys l r ∧ sanitize l = l ∧ sanitize r = r ∧
  (renderStr l).length = (renderStr r).length ∧ c < 2 ^ 64 ∧ m = (⟨l, c⟩ : Node).toJ ∧ m' = (⟨r, c⟩ : Node).toJ

theorem idPairs_snoc (xs : List IdCall) (x : IdCall) (kw : GoString) : idPairs (xs ++ [x]) kw = idPairs xs kw ++ idPairs [x] kw :=
  List.filterMap_append

theorem mem_idPairs_one {x : IdCall} {kw : GoString} {p : GoString × GoString} (h : p ∈ idPairs [x] kw) :
    x.1.keyword = kw ∧ x.1.identifier = some p.1 ∧ x.2 = p.2 := by
  simp only [idPairs, List.filterMap_cons, List.filterMap_nil] at h
  by_cases hk : x.1.keyword = kw
  · rw [if_pos hk] at h
    cases hi : x.1.identifier with
    | none => rw [hi] at h; exact nomatch h
    | some id =>
      rw [hi] at h
      obtain rfl := List.mem_singleton.mp h
      exact ⟨hk, rfl, rfl⟩
  · rw [if_neg hk] at h
    exact nomatch h

theorem Legal.inj {ys : List IdCall} (h : Legal FairId ys) (kw : GoString) :
    ∀ p ∈ idPairs ys kw, ∀ q ∈ idPairs ys kw, p.1 = q.1 ↔ p.2 = q.2 := by
  induction h with
  | nil => exact nofun
  | @snoc xs x _ hf ih =>
    have hx : ∀ p ∈ idPairs xs kw, ∀ q ∈ idPairs [x] kw, p.1 = q.1 ↔ p.2 = q.2 := by
      intro p hp q hq
      obtain ⟨rfl, h2, h3⟩ := mem_idPairs_one hq
      rw [← h3]
      exact Paired.iff (hf.paired _ h2) p hp
    intro p hp q hq
    rw [idPairs_snoc] at hp hq
    rcases List.mem_append.mp hp with hp | hp <;> rcases List.mem_append.mp hq with hq | hq
    · exact ih p hp q hq
    · exact hx p hp q hq
    · have := hx q hq p hp
      exact ⟨fun e => (this.mp e.symm).symm, fun e => (this.mpr e.symm).symm⟩
    · obtain ⟨-, h2, h3⟩ := mem_idPairs_one hp
      obtain ⟨-, h2', h3'⟩ := mem_idPairs_one hq
      have : p.1 = q.1 := Option.some.inj (h2.symm.trans h2')
      have h4 : p.2 = q.2 := h3.symm.trans h3'
      exact ⟨fun _ => h4, fun _ => this⟩

theorem Legal.leftName {ys : List IdCall} (h : Legal FairId ys) {kw l r : GoString} (hm : (l, r) ∈ idPairs ys kw) :
    leftName (idPairs ys kw) r = l := by
  rw [D1.leftName]
  cases hf : (idPairs ys kw).find? fun p => p.2 = r with
  | none =>
    have := List.find?_eq_none.mp hf _ hm
    simp at this
  | some p =>
    have h1 := List.mem_of_find?_eq_some hf
    have h2 := List.find?_some hf
    simp only [decide_eq_true_eq] at h2
    exact (h.inj kw p h1 _ hm).mpr h2

theorem idPairs_prefix {xs ys : List IdCall} (h : xs <+: ys) {kw : GoString} {p : GoString × GoString} (hp : p ∈ idPairs xs kw) :
    p ∈ idPairs ys kw := by
  obtain ⟨t, rfl⟩ := h
  rw [idPairs, List.filterMap_append]
  exact List.mem_append_left _ hp

theorem render_node (l : GoString) (c : Nat) : (⟨l, c⟩ : Node).toJ.render.length =
    (renderStr l).length + (renderStr nIdentifier).length + (renderStr nNextCounter).length + (decEnc c).length + 5 := by
  simp [Node.toJ, J.render, JFields.render]
  omega

section
variable {R : Type} {P : Prims} {k1 : Bytes} {B : J → J → Prop} {Q : R → R → Prop}

/-- Nodes whose boxes are related. -/
def Peered (B : J → J → Prop) (n n' : Node) : Prop :=
  n.nextCounter = n'.nextCounter ∧ n.toJ.render.length = n'.toJ.render.length ∧ B n.toJ n'.toJ

/-- What is read from related boxes is related. -/
def Reads (B : J → J → Prop) : Prop :=
  ∀ m m', B m m' → ∃ n n', Node.ofJ m.san = some n ∧ Node.ofJ m'.san = some n' ∧ Peered B n n'

theorem mirror_branch {no no' : IProg R} {yes yes' : Node → IProg R} (hn : no.Mirror B Q no') (e : Err) :
    (branch no yes (.error e)).Mirror B Q (branch no' yes' (.error e)) := by
  cases e <;> first | exact hn | rfl

theorem mirror_nextI (hB : Reads B) (c : Nat) {no no' : IProg R} {yes yes' : Node → IProg R} (hn : no.Mirror B Q no')
    (hy : ∀ n n', Peered B n n' → (yes n).Mirror B Q (yes' n')) : (nextI P k1 c no yes).Mirror B Q (nextI P k1 c no' yes') := by
  refine IProg.mirror_after _ fun label => IProg.mirror_after _ fun r => ?_
  cases r with
  | error e => exact mirror_branch hn e
  | ok sn =>
    refine ⟨rfl, rfl, rfl, fun e => mirror_branch hn e, fun m m' hm => ?_⟩
    obtain ⟨n, n', h1, h2, h3⟩ := hB m m' hm
    simp only [readAs, Option.bind_some, h1, h2]
    exact hy n n' h3

theorem mirror_nodeI {n n' : Node} (h : Peered B n n') (label : Bytes) {k k' : SealedNode → IProg R} (hk : ∀ sn, (k sn).Mirror B Q (k' sn)) :
    (nodeI n label k).Mirror B Q (nodeI n' label k') := ⟨rfl, h.2.2, h.2.1, fun _ => hk _⟩

theorem mirror_lastI (hB : Reads B) {k k' : Nat → IProg R} (hk : ∀ c, (k c).Mirror B Q (k' c)) :
    ∀ fuel c, (lastI P k1 fuel c k).Mirror B Q (lastI P k1 fuel c k') := by
  intro fuel
  induction fuel with
  | zero => intro c; trivial
  | succ fuel ih => exact fun c => mirror_nextI hB c (hk c) fun n n' h => h.1 ▸ ih _

theorem mirror_searchI (hB : Reads B) {k k' : List GoString → IProg R}
    (hk : ∀ l l', List.Forall₂ (fun a b => ∃ n n', Peered B n n' ∧ a = n.identifier ∧ b = n'.identifier) l l' → (k l).Mirror B Q (k' l')) :
    ∀ fuel c l l', List.Forall₂ (fun a b => ∃ n n', Peered B n n' ∧ a = n.identifier ∧ b = n'.identifier) l l' →
      (searchI P k1 fuel c l k).Mirror B Q (searchI P k1 fuel c l' k') := by
  intro fuel
  induction fuel with
  | zero => intros; trivial
  | succ fuel ih =>
    exact fun c l l' hl => mirror_nextI hB c (hk l l' hl) fun n n' h =>
      h.1 ▸ ih _ _ _ (List.rel_append hl (.cons ⟨n, n', h, rfl, rfl⟩ .nil))

theorem mirror_deleteNodeI (hB : Reads B) (label : Bytes) (c : Nat) {k k' : IProg R} (hk : k.Mirror B Q k') :
    (deleteNodeI P k1 label c k).Mirror B Q (deleteNodeI P k1 label c k') :=
  mirror_nextI hB c (IProg.mirror_after _ fun _ => hk) fun _ _ h => mirror_nodeI h label fun _ =>
    IProg.mirror_after _ fun _ => IProg.mirror_after _ fun _ => IProg.mirror_after _ fun _ => hk

theorem mirror_deleteI (hB : Reads B) {id id' : GoString} (hid : ∀ n n', Peered B n n' → (n.identifier = id ↔ n'.identifier = id'))
    {k k' : IProg R} (hk : k.Mirror B Q k') :
    ∀ fuel c, (deleteI P k1 id fuel c k).Mirror B Q (deleteI P k1 id' fuel c k') := by
  intro fuel
  induction fuel with
  | zero => intro c; trivial
  | succ fuel ih =>
    refine fun c => mirror_nextI hB c hk fun n n' h => ?_
    by_cases hn : n.identifier = id
    · rw [if_pos hn, if_pos ((hid n n' h).mp hn), ← h.1]
      exact IProg.mirror_after _ fun label => mirror_deleteNodeI hB label _ (ih c)
    · rw [if_neg hn, if_neg fun e => hn ((hid n n' h).mpr e), ← h.1]
      exact ih _

end

theorem reads_peers (i : Nat) (ys : List IdCall) : Reads (NodePeers i ys) := by
  rintro m m' ⟨l, r, c, hp, hl, hr, hlen, hc, rfl, rfl⟩
  refine ⟨⟨l, c⟩, ⟨r, c⟩, ?_, ?_, rfl, ?_, l, r, c, hp, hl, hr, hlen, hc, rfl, rfl⟩
  · rw [Node.ofJ_toJ _ hc, hl]
  · rw [Node.ofJ_toJ _ hc, hr]
  · rw [render_node, render_node, hlen]

theorem toJ_inj {n n' : Node} (h : n.toJ = n'.toJ) : n = n' := by
  obtain ⟨l, c⟩ := n
  obtain ⟨l', c'⟩ := n'
  simp only [Node.toJ, J.obj.injEq, JFields.cons.injEq, J.str.injEq, J.num.injEq] at h
  simp [h.2.1, h.2.2.2.1]

theorem peered_ids {i : Nat} {ys : List IdCall} {n n' : Node} (h : Peered (NodePeers i ys) n n') : Peers i ys n.identifier n'.identifier := by
  obtain ⟨-, -, l, r, c, hp, -, -, -, -, h1, h2⟩ := h
  rw [toJ_inj h1, toJ_inj h2]
  exact hp

/-- A call about the keyword in question, with boxes. -/
def idI {R : Type} (P : Prims) (i : SecureIndex) (fuel : Nat) (report : IxRes → R) (right : Bool) (k1 : Bytes) (x : IdCall) :
    IProg (List IdCall → R) :=
  ixI P k1 i fuel (fun r => .ret (idShown report right x r)) (idCall right x)

theorem mirror_idI {R : Type} {P : Prims} (i : SecureIndex) (fuel : Nat) (report : IxRes → R) (k1 : Bytes) {xs : List IdCall} {x : IdCall}
    (hf : FairId xs x) : Abreast FairId (NodePeers (place xs x)) (xs ++ [x]) (idI P i fuel report false k1 x)
      (idI P i fuel report true k1 x) := by
  rintro ys ⟨hpre, hys⟩
  obtain ⟨z, hz, hzk⟩ := place_here xs x
  have hz' : ys[place xs x]? = some z := by
    obtain ⟨t, rfl⟩ := hpre
    rw [List.getElem?_append_left]
    · exact hz
    · have := place_le xs x
      simp; omega
  have hpeers : ∀ l r, Peers (place xs x) ys l r ↔ (l, r) ∈ idPairs ys x.1.keyword := by
    intro l r
    constructor
    · rintro ⟨z', h1, h2⟩
      rw [hz', Option.some.injEq] at h1
      rw [← h1, hzk] at h2
      exact h2
    · exact fun h => ⟨z, hz', by rw [hzk]; exact h⟩
  have hB := reads_peers (place xs x) ys
  have hu : (IProg.ret (idShown report false x .unit)).Mirror (NodePeers (place xs x) ys) (fun f f' => f ys = f' ys)
      (.ret (idShown report true x .unit)) := rfl
  obtain ⟨c, r⟩ := x
  cases c with
  | add t kw id =>
    obtain ⟨h1, h2, h3⟩ := hf.text rfl id rfl
    refine IProg.mirror_after _ fun _ => mirror_lastI hB (fun c => ?_) fuel 0
    refine IProg.mirror_after _ fun label => ?_
    have hm : (id, r) ∈ idPairs ys kw := idPairs_prefix hpre (by simp [idPairs, IxCall.keyword, IxCall.identifier])
    have hp : Peered (NodePeers (place xs (.add t kw id, r)) ys) ⟨id, (c + 1) % 2 ^ 64⟩ ⟨r, (c + 1) % 2 ^ 64⟩ :=
      ⟨rfl, by rw [render_node, render_node, h3],
        id, r, (c + 1) % 2 ^ 64, (hpeers _ _).mpr hm, h1, h2, h3, Nat.mod_lt _ (by decide), rfl, rfl⟩
    exact mirror_nodeI hp label fun sn => IProg.mirror_after _ fun _ => hu
  | search t kw =>
    refine IProg.mirror_after _ fun _ => mirror_searchI hB (fun l l' hl => ?_) fuel 0 [] [] .nil
    show report (.ids l) = report (.ids (l'.map (leftName (idPairs ys kw))))
    congr 2
    clear hB
    induction hl with
    | nil => rfl
    | @cons a b l l' h _ ih =>
      obtain ⟨n, n', hn, rfl, rfl⟩ := h
      rw [List.map_cons, ← ih, hys.leftName (show (n.identifier, n'.identifier) ∈ idPairs ys kw from (hpeers _ _).mp (peered_ids hn))]
  | delete t kw id =>
    have hm : (id, r) ∈ idPairs ys kw := idPairs_prefix hpre (by simp [idPairs, IxCall.keyword, IxCall.identifier])
    refine IProg.mirror_after _ fun _ => mirror_deleteI hB (fun n n' hn => ?_) hu fuel 0
    exact hys.inj kw _ ((hpeers _ _).mp (peered_ids hn)) _ hm

/-! ## From one side to the other, keyword by keyword -/

section
variable {R : Type} (P : Prims) (i : SecureIndex) (fuel : Nat) (report : IxRes → R)

/-- A call, given the keys of its keyword. -/
def idBody (right : Bool) (k1 k2 : Bytes) (x : IdCall) : Prog (List IdCall → R) :=
  (ixKeyed P i fuel k1 k2 (idCall right x)).bind fun r => .ret (idShown report right x r)

/-- The right side is taken for keywords whose number is below `m`, and for keyword `m` if `right`. -/
def sideAt (m : Nat) (right : Bool) (xs : List IdCall) (x : IdCall) : Bool :=
  decide (place xs x < m) || (right && decide (place xs x = m))

/-- Begin a call; the key of keyword `m` is not drawn. -/
def idStart (m : Nat) (right : Bool) (xs : List IdCall) (x : IdCall) (s : List ((Bytes × Bytes) × Bytes)) :
    Draw (List ((Bytes × Bytes) × Bytes) × IProg (List IdCall → R)) :=
  drawKey (labelLabel, numeral (place xs x)) s fun k1 s =>
    if place xs x = m then .done (s, idI P i fuel report right k1 x)
    else drawKey (labelId, numeral (place xs x)) s fun k2 s => .done (s, .lift (idBody P i fuel report (decide (place xs x < m)) k1 k2 x))

/-- The attack on the key derivation. -/
noncomputable def idKdf (A : Spy IdCall R) (n : Nat) (right : Bool) : OAdv (Bytes × Bytes) fun _ => Bytes :=
  A.askTree FairId (fun _ x => x.1.keyword) (fun _ => idBody P i fuel report right) n [] [] []

/-- The game in which the right side is taken for some keywords. -/
noncomputable def idMixed (A : Spy IdCall R) (n m : Nat) (right : Bool) : OAdv (Bytes × Bytes) fun _ => Bytes :=
  A.askTree FairId (fun xs x => numeral (place xs x)) (fun xs k1 k2 x => idBody P i fuel report (sideAt m right xs x) k1 k2 x) n [] [] []

/-- The same with boxes for keyword `m`. -/
noncomputable def idTree (A : Spy IdCall R) (n m : Nat) (right : Bool) : IAdv :=
  A.contestTree FairId (idStart P i fuel report m right) n [] [] [] []

end

section
variable {R : Type} {P : Prims} (L : P.Laws) (i : SecureIndex) (fuel : Nat) (report : IxRes → R)

theorem ask_congr {X : Type} (A : Spy X R) (fair : List X → X → Prop) (q : List X → X → Bytes)
    {body body' : List X → Bytes → Bytes → X → Prog (List X → R)} {N : Nat}
    (h : ∀ xs k1 k2 x, xs.length < N → body xs k1 k2 x = body' xs k1 k2 x) :
    ∀ (n : Nat) (xs : List X) (v : List (Sight R)) (ps : List (Prog (List X → R))), xs.length + n ≤ N →
      A.askTree fair q body n xs v ps = A.askTree fair q body' n xs v ps := by
  intro n
  induction n with
  | zero => intros; rfl
  | succ n ih =>
    intro xs v ps hN
    simp only [Spy.askTree]
    cases A.move n v with
    | stop => rfl
    | begin x =>
      dsimp only
      rw [ih xs v ps (by omega)]
      congr 2; funext k1
      congr 1; funext k2
      rw [h xs k1 k2 x (by omega)]
      exact ih _ _ _ (by simp; omega)
    | other p => exact ih _ _ _ (by omega)
    | step j =>
      dsimp only
      cases ps[j]? with
      | none => exact ih _ _ _ (by omega)
      | some p =>
        dsimp only
        congr 1; funext p'
        cases nextStep p' with
        | inl o => exact ih _ _ _ (by omega)
        | inr x => exact ih _ _ _ (by omega)

include L in
theorem play_idTree (A : Spy IdCall R) (m : Nat) (right : Bool) (kek : BytesN 32) :
    ∀ (n : Nat) (s : List ((Bytes × Bytes) × Bytes)) (xs : List IdCall) (v : List (Sight R)) (ps : List (IProg (List IdCall → R)))
      (T : List (IRec (BytesN 32))), s.lookup (labelId, numeral m) = none → TrueRecs P kek T →
      (A.contestTree FairId (idStart P i fuel report m right) n s xs v ps).play (boxTrue P kek) T =
        (A.askTree FairId (fun xs x => numeral (place xs x)) (fun xs k1 k2 x => idBody P i fuel report (sideAt m right xs x) k1 k2 x)
          n xs v (ps.map (·.expand P kek))).play kdfRandom (s ++ [((labelId, numeral m), kek.1)]) := by
  intro n
  induction n with
  | zero => intros; rfl
  | succ n ih =>
    intro s xs v ps T hs hT
    simp only [Spy.contestTree, Spy.askTree]
    cases A.move n v with
    | stop => rfl
    | begin x =>
      dsimp only
      by_cases hf : FairId xs x
      · rw [if_pos hf, if_pos hf]
        refine play_drawKey (fun e => absurd (show labelLabel = labelId from congrArg Prod.fst e) (by decide)) hs fun k1 s hs => ?_
        by_cases hp : place xs x = m
        · rw [if_pos hp]
          have hl : (s ++ [((labelId, numeral m), kek.1)]).lookup (labelId, numeral m) = some kek.1 := by simp [List.lookup_append, hs]
          simp only [Draw.tree, OAdv.play, kdfRandom, hp, hl, PMF.pure_bind]
          refine (ih _ _ _ _ _ hs hT).trans ?_
          have hside : sideAt m right xs x = right := by simp [sideAt, hp]
          rw [List.map_append, List.map_singleton, idI, expand_ixI L, hside]
          rfl
        · rw [if_neg hp]
          refine play_drawKey (fun e => hp (numeral_inj (congrArg Prod.snd e))) hs fun k2 s hs => ?_
          simp only [Draw.tree]
          refine (ih _ _ _ _ _ hs hT).trans ?_
          have hside : sideAt m right xs x = decide (place xs x < m) := by simp [sideAt, hp]
          rw [List.map_append, List.map_singleton, IProg.expand_lift, hside]
      · rw [if_neg hf, if_neg hf]
        exact ih _ _ _ _ _ hs hT
    | other p =>
      refine (ih _ _ _ _ _ hs hT).trans ?_
      rw [List.map_append, List.map_singleton, IProg.expand_after]
      rfl
    | step j =>
      simp only [List.getElem?_map]
      cases ps[j]? with
      | none => exact ih _ _ _ _ _ hs hT
      | some p =>
        simp only [Option.map_some]
        rw [play_tosses _ _ _ _ fun _ => rfl]
        refine play_itree L kek _ _ (fun q T hq hT => ?_) p T hT
        rw [inext_expand P kek hq]
        cases hn : q.next with
        | inl o => exact (ih _ _ _ _ _ hs hT).trans (by rw [List.map_set])
        | inr x =>
          obtain ⟨e, k⟩ := x
          exact (ih _ _ _ _ _ hs hT).trans (by rw [List.map_set])

theorem same_drawKey {α : Type} {E : α → α → Prop} {q : Bytes × Bytes} {s : List ((Bytes × Bytes) × Bytes)}
    {f f' : Bytes → List ((Bytes × Bytes) × Bytes) → Draw α} (h : ∀ r s, (f r s).Same E (f' r s)) :
    (drawKey q s f).Same E (drawKey q s f') := by
  rw [drawKey, drawKey]
  cases s.lookup q with
  | some r => exact h r s
  | none => exact ⟨rfl, fun r => h _ _⟩

theorem matched_idTree (A : Spy IdCall R) (n m : Nat) :
    Matched [] (idTree P i fuel report A n m false) (idTree P i fuel report A n m true) := by
  refine matched_contest (B := NodePeers m) (fun xs x s hl hf => ?_) A n [] [] [] [] [] [] .nil .nil fun _ _ => nofun
  refine same_drawKey fun k1 s => ?_
  by_cases hp : place xs x = m
  · rw [if_pos hp, if_pos hp]
    subst hp
    exact ⟨rfl, mirror_idI i fuel report k1 hf⟩
  · rw [if_neg hp, if_neg hp]
    exact same_drawKey fun k2 s => ⟨rfl, fun ys _ => IProg.mirror_lift _ fun _ => rfl⟩

include L in
theorem idMixed_random (A : Spy IdCall R) (n m : Nat) (right : Bool) : (idMixed P i fuel report A n m right).play kdfRandom [] =
    (unif 32).bind fun kek => (idTree P i fuel report A n m right).play (boxTrue P kek) [] := by
  rw [play_early (labelId, numeral m) _ (T := []) rfl]
  congr 1; funext kek
  exact (play_idTree L i fuel report A m right kek n [] [] [] [] [] rfl nofun).symm

theorem idMixed_next (A : Spy IdCall R) (n m : Nat) : idMixed P i fuel report A n m true = idMixed P i fuel report A n (m + 1) false := by
  have : ∀ xs x, sideAt m true xs x = sideAt (m + 1) false xs x := by
    intro xs x
    simp only [sideAt, Bool.true_and, Bool.false_and, Bool.or_false, ← Bool.decide_or]
    congr 1
    exact propext (by omega)
  simp only [idMixed, this]

theorem idMixed_ends (A : Spy IdCall R) (n m : Nat) (b : Bool) (h : ∀ xs x, xs.length < n → sideAt m false xs x = b) :
    (idKdf P i fuel report A n b).play kdfRandom [] = (idMixed P i fuel report A n m false).play kdfRandom [] := by
  rw [idKdf, play_numbered (fun _ => idBody P i fuel report b) A FairId n [] [] [] [] [] [] ⟨nofun, nofun, fun _ _ _ => rfl, fun _ _ _ => rfl⟩ nofun]
  rw [ask_congr A FairId _ (body' := fun xs k1 k2 x => idBody P i fuel report (sideAt m false xs x) k1 k2 x) (N := n)
    (fun xs k1 k2 x hl => by rw [h xs x hl]) n [] [] [] (by simp)]
  rfl

end

theorem gap_triangle (p q r : PMF Bool) : gap p r ≤ gap p q + gap q r := abs_sub_le _ _ _

theorem gap_comm (p q : PMF Bool) : gap p q = gap q p := abs_sub_comm _ _

theorem gap_chain (H : Nat → PMF Bool) (n : Nat) : gap (H 0) (H n) ≤ ∑ m ∈ Finset.range n, gap (H m) (H (m + 1)) := by
  induction n with
  | zero => simp [gap]
  | succ n ih =>
    rw [Finset.sum_range_succ]
    exact (gap_triangle _ (H n) _).trans (by linarith)

theorem idMixed_gap {P : Prims} (L : P.Laws) (i : SecureIndex) (fuel : Nat) {R : Type} (report : IxRes → R) (A : Spy IdCall R) (n m : Nat) :
    gap ((idMixed P i fuel report A n m false).play kdfRandom []) ((idMixed P i fuel report A n (m + 1) false).play kdfRandom []) ≤
      wrapGap P (toUnwrap P (idTree P i fuel report A n m false) []) + forgeGap P (forger P (idTree P i fuel report A n m false)) +
        sealGap P (picker P (idTree P i fuel report A n m false) (idTree P i fuel report A n m true)) +
        forgeGap P (forger P (idTree P i fuel report A n m true)) + wrapGap P (toUnwrap P (idTree P i fuel report A n m true) []) := by
  rw [← idMixed_next, idMixed_random L, idMixed_random L]
  exact matched_gap L (matched_idTree i fuel report A n m)

/-- C105: whoever can tell which identifiers are used can tell derived keys from random ones or, for one of the keywords, tells
wrapped keys from other keys, forges AES-GCM ciphertexts, or tells AES-GCM ciphertexts apart. -/
theorem C105_identifiers {P : Prims} (L : P.Laws) (i : SecureIndex) (fuel : Nat) {R : Type} (report : IxRes → R) (A : Spy IdCall R) (n : Nat) :
    gap (contestGame (idContest P i fuel report false) A n) (contestGame (idContest P i fuel report true) A n) ≤
      kdfGap P (idKdf P i fuel report A n false) + kdfGap P (idKdf P i fuel report A n true) +
        ∑ m ∈ Finset.range n,
          (wrapGap P (toUnwrap P (idTree P i fuel report A n m false) []) + forgeGap P (forger P (idTree P i fuel report A n m false)) +
            sealGap P (picker P (idTree P i fuel report A n m false) (idTree P i fuel report A n m true)) +
            forgeGap P (forger P (idTree P i fuel report A n m true)) + wrapGap P (toUnwrap P (idTree P i fuel report A n m true) [])) := by
  have hreal : ∀ right, contestGame (idContest P i fuel report right) A n =
      (unif 32).bind fun key => (idKdf P i fuel report A n right).play (kdfReal P key) () := by
    intro right
    refine congrArg (PMF.bind _) (funext fun key => ?_)
    refine (play_ask (derived P key) (fun x : IdCall => x.1.keyword) (idBody P i fuel report right) (idContest P i fuel report right key)
      (fun x => ?_) A n [] [] []).symm
    have hk : (idCall right x).keyword = x.1.keyword := by
      obtain ⟨c, r⟩ := x
      cases right <;> cases c <;> rfl
    simp only [idContest, idBody, ixProg_body L, hk]
  have h0 := idMixed_ends (P := P) i fuel report A n 0 false fun xs x _ => by simp [sideAt]
  have hn := idMixed_ends (P := P) i fuel report A n n true fun xs x hl => by
    have := place_le xs x
    simp [sideAt]; omega
  have hchain := gap_chain (fun m => (idMixed P i fuel report A n m false).play kdfRandom []) n
  have hsum := Finset.sum_le_sum fun m (_ : m ∈ Finset.range n) => idMixed_gap L i fuel report A n m
  rw [hreal, hreal]
  refine (gap_triangle _ ((idKdf P i fuel report A n false).play kdfRandom []) _).trans ?_
  have h1 := gap_triangle ((idKdf P i fuel report A n false).play kdfRandom []) ((idKdf P i fuel report A n true).play kdfRandom [])
    ((unif 32).bind fun key => (idKdf P i fuel report A n true).play (kdfReal P key) ())
  rw [gap_comm ((idKdf P i fuel report A n true).play kdfRandom []) ((unif 32).bind fun key => (idKdf P i fuel report A n true).play (kdfReal P key) ())] at h1
  rw [← h0, ← hn] at hchain
  simp only [kdfGap]
  linarith

/-! ## How often the attacks ask -/

section
variable {R : Type} {P : Prims} {k1 : Bytes}

theorem bursts_branch {n : Nat} {no : IProg R} {yes : Node → IProg R} (hn : no.Bursts 2 n) (hy : ∀ x, (yes x).Bursts 2 n)
    (r : Except Err Node) : (branch no yes r).Bursts 2 n := by
  cases r with
  | ok x => exact hy x
  | error e => cases e <;> first | exact hn | (cases n <;> trivial)

theorem bursts_nextI {n : Nat} (hn : n ≤ 2) (c : Nat) {no : IProg R} {yes : Node → IProg R} (h1 : no.Bursts 2 1) (h2 : ∀ x, (yes x).Bursts 2 1) :
    (nextI P k1 c no yes).Bursts 2 n := by
  refine IProg.bursts_after hn _ fun label => ?_
  simp only [getSealedNode, ioGet, Prog.bind_eq, Prog.bind, Prog.attempt, IProg.after]
  suffices h : ∀ r : Except Err SealedNode, IProg.Bursts 2 2 (match r with
      | .error e => branch no yes (.error e)
      | .ok sn => .unbox (J.ofBytes (some label)).render sn.wrappedKey.bytes sn.ciphertext.bytes fun r => branch no yes (readAs Node.ofJ r)) by
    have : ∀ p : Prog SealedNode, IProg.Bursts 2 2 (.after (p.attempt fun r => .ret r) fun r => match r with
      | .error e => branch no yes (.error e)
      | .ok sn => .unbox (J.ofBytes (some label)).render sn.wrappedKey.bytes sn.ciphertext.bytes fun r => branch no yes (readAs Node.ofJ r)) :=
      fun p => IProg.bursts_after (Nat.le_refl 2) _ h
    cases n <;> exact fun r => this _
  intro r
  cases r with
  | error e => exact bursts_branch (h1.mono (by omega)) (fun x => (h2 x).mono (by omega)) _
  | ok sn => exact fun r => bursts_branch h1 h2 _

theorem bursts_lastI {k : Nat → IProg R} (hk : ∀ c, (k c).Bursts 2 1) : ∀ fuel c {n : Nat}, n ≤ 2 → (lastI P k1 fuel c k).Bursts 2 n := by
  intro fuel
  induction fuel with
  | zero => intro c n _; cases n <;> trivial
  | succ fuel ih => exact fun c n hn => bursts_nextI hn c (hk c) fun x => ih _ (by omega)

theorem bursts_searchI {k : List GoString → IProg R} (hk : ∀ l, (k l).Bursts 2 1) :
    ∀ fuel c l {n : Nat}, n ≤ 2 → (searchI P k1 fuel c l k).Bursts 2 n := by
  intro fuel
  induction fuel with
  | zero => intro c l n _; cases n <;> trivial
  | succ fuel ih => exact fun c l n hn => bursts_nextI hn c (hk l) fun x => ih _ _ (by omega)

theorem bursts_deleteI (id : GoString) {k : IProg R} (hk : k.Bursts 2 1) :
    ∀ fuel c {n : Nat}, n ≤ 2 → (deleteI P k1 id fuel c k).Bursts 2 n := by
  intro fuel
  induction fuel with
  | zero => intro c n _; cases n <;> trivial
  | succ fuel ih =>
    refine fun c n hn => bursts_nextI hn c hk fun x => ?_
    split
    · refine IProg.bursts_after (by omega) _ fun label => bursts_nextI (by omega) _ ?_ fun next => ?_
      · exact IProg.bursts_after (by omega) _ fun _ => ih _ (by omega)
      · intro r
        exact IProg.bursts_after (Nat.zero_le 2) _ fun _ => IProg.bursts_after (Nat.zero_le 2) _ fun _ =>
          IProg.bursts_after (Nat.zero_le 2) _ fun _ => ih _ (Nat.zero_le 2)
    · exact ih _ (by omega)

theorem bursts_ixI (i : SecureIndex) (fuel : Nat) {k : IxRes → IProg R} (hk : ∀ r, (k r).Bursts 2 0) (c : IxCall) :
    (ixI P k1 i fuel k c).Bursts 2 2 := by
  cases c with
  | add t kw id =>
    refine IProg.bursts_after (Nat.le_refl 2) _ fun _ => bursts_lastI (fun c => ?_) fuel 0 (Nat.le_refl 2)
    exact IProg.bursts_after (by omega) _ fun label => fun r => IProg.bursts_after (Nat.zero_le 2) _ fun _ => hk _
  | search t kw => exact IProg.bursts_after (Nat.le_refl 2) _ fun _ => bursts_searchI (fun l => (hk _).mono (by omega)) fuel 0 [] (Nat.le_refl 2)
  | delete t kw id => exact IProg.bursts_after (Nat.le_refl 2) _ fun _ => bursts_deleteI id ((hk _).mono (by omega)) fuel 0 (Nat.le_refl 2)

end

theorem all_drawKey {α : Type} {E : α → Prop} {q : Bytes × Bytes} {s : List ((Bytes × Bytes) × Bytes)}
    {f : Bytes → List ((Bytes × Bytes) × Bytes) → Draw α} (h : ∀ r s, (f r s).All E) : (drawKey q s f).All E := by
  rw [drawKey]
  cases s.lookup q with
  | some r => exact h r s
  | none => exact fun r => h _ _

theorem asks_idTree {R : Type} (P : Prims) (i : SecureIndex) (fuel : Nat) (report : IxRes → R) (A : Spy IdCall R) (n m : Nat) (right : Bool) :
    (idTree P i fuel report A n m right).Asks (2 * n) := by
  refine bursts_contest A FairId (fun xs x s => ?_) n [] [] [] [] nofun
  refine all_drawKey fun k1 s => ?_
  split
  · exact bursts_ixI i fuel (k := fun r => .ret (idShown report right x r)) (fun _ => trivial) _
  · exact all_drawKey fun k2 s => IProg.bursts_lift (Nat.le_refl 2) _

/-- C105: the attacks on the key derivation ask twice per call. -/
theorem C105_keys {R : Type} (P : Prims) (i : SecureIndex) (fuel : Nat) (report : IxRes → R) (A : Spy IdCall R) (n : Nat) (right : Bool) :
    (idKdf P i fuel report A n right).Asks (2 * n) := by
  suffices H : ∀ (n : Nat) (xs : List IdCall) (v : List (Sight R)) (ps : List (Prog (List IdCall → R))),
      (A.askTree FairId (fun _ x => x.1.keyword) (fun _ => idBody P i fuel report right) n xs v ps).Asks (2 * n) from H n [] [] []
  intro n
  induction n with
  | zero => intros; trivial
  | succ n ih =>
    intro xs v ps
    have ih' := fun xs v ps => (ih xs v ps).mono (show 2 * n ≤ 2 * (n + 1) by omega)
    simp only [Spy.askTree]
    cases A.move n v with
    | stop => trivial
    | begin x =>
      dsimp only
      split
      · exact fun k1 k2 => ih _ _ _
      · exact ih' _ _ _
    | other p => exact ih' _ _ _
    | step j =>
      dsimp only
      cases ps[j]? with
      | none => exact ih' _ _ _
      | some p =>
        refine asks_tosses (fun p => ?_) _
        cases nextStep p with
        | inl o => exact ih' _ _ _
        | inr x => exact ih' _ _ _

/-- C105: the other attacks ask at most twice for each move of the adversary. -/
theorem C105_questions {R : Type} (P : Prims) (i : SecureIndex) (fuel : Nat) (report : IxRes → R) (A : Spy IdCall R) (n m : Nat) :
    (∀ right, (toUnwrap P (idTree P i fuel report A n m right) []).Asks (2 * n)) ∧
      (∀ right, (forger P (idTree P i fuel report A n m right)).Asks (2 * n)) ∧
      (picker P (idTree P i fuel report A n m false) (idTree P i fuel report A n m true)).Asks (2 * n) :=
  ⟨fun right => asks_toUnwrap P _ _ (asks_idTree P i fuel report A n m right),
    fun right kek => asks_toForge P kek _ _ (asks_idTree P i fuel report A n m right),
    fun kek => asks_toPick P kek _ _ _ (asks_idTree P i fuel report A n m false)⟩

/-! ## Cases

With an AES-GCM that leaves messages readable the first adversary below guesses right every time, so the right hand side of the
theorem is at least 1.  The second is shown the same names on both sides. -/

/-- An `Add` for a keyword that is not there: it looks for the first node, and puts it. -/
theorem add_first {P : Prims} (L : P.Laws) (i : SecureIndex) (key : BytesN 32) (fuel : Nat) {t kw id : GoString}
    (hv : i.verifyAccess t = .ret ()) : ∃ k, ixProg P (i.withKey key) (fuel + 1) (.add t kw id) =
        .op (.get (ixLabel P (i.withKey key) kw 0) dtNode) k ∧
      k (.error .notFound) = (randBytes 32).bind fun key' => (randBytes 12).bind fun nonce =>
        .op (.put (ixLabel P (i.withKey key) kw 0) dtNode (sealedNode P (i.withKey key) kw 0 ⟨id, 1⟩ key' nonce).toJ.render) fun r =>
          match r with
          | .ok () => .ret .unit
          | .error e => .err (onAlreadyExists .nodeAlreadyExists e) := by
  have hv : (i.withKey key).verifyAccess t = .ret () := hv
  rw [ixProg_eq L key.2, IxCall.token, hv, Prog.ret_bind]
  simp only [ixBody, addBody, getLastNode, getLastNodeLoop, getNextNode_eq L, Prog.bind, Prog.attempt]
  refine ⟨_, rfl, ?_⟩
  have hz : zeroNode.nextCounter = 0 := rfl
  simp only [readNode, onNotFound, Prog.ofExcept, Prog.attempt, Prog.ret_bind, node_seal_eq L, Prog.bind_assoc, ioPut,
    Prog.bind]
  refine congrArg (Prog.bind _) (funext fun key' => congrArg (Prog.bind _) (funext fun nonce => ?_))
  congr 1; funext r
  rcases r with e | u <;> rfl

/-- A `Search` that finds one node. -/
theorem search_one {P : Prims} (L : P.Laws) (i : SecureIndex) (key : BytesN 32) (fuel : Nat) {t kw : GoString} {n : Node}
    (hn : n.nextCounter < 2 ^ 64) (key' : BytesN 32) (nonce : BytesN 12)
    (hv : i.verifyAccess t = .ret ()) : ∃ k k', ixProg P (i.withKey key) (fuel + 2) (.search t kw) =
        .op (.get (ixLabel P (i.withKey key) kw 0) dtNode) k ∧
      k (.ok (sealedNode P (i.withKey key) kw 0 n key' nonce).toJ.render) =
        .op (.get (ixLabel P (i.withKey key) kw n.nextCounter) dtNode) k' ∧
      k' (.error .notFound) = .ret (.ids [sanitize n.identifier]) := by
  have hv : (i.withKey key).verifyAccess t = .ret () := hv
  rw [ixProg_eq L key.2, IxCall.token, hv, Prog.ret_bind]
  simp only [ixBody, searchLoop, getNextNode_eq L, Prog.bind, Prog.attempt]
  have hz : zeroNode.nextCounter = 0 := rfl
  have hr := readNode_rec L (i := i.withKey key) kw 0 n key' nonce hn
  have hs : (sealedNode P (i.withKey key) kw 0 n key' nonce).toJ.render = nodeRec P (i.withKey key) kw 0 n key' nonce := rfl
  rw [hs]
  apply Exists.intro
  apply Exists.intro
  refine ⟨rfl, ?_⟩
  simp only [hz, hr, Prog.ofExcept, Prog.attempt, Prog.bind]
  exact ⟨rfl, rfl⟩

/-- The adversary has one identifier added, and looks at the node. -/
def idSpy : Spy IdCall IxRes where
  answer _ e := (Store.exec (fun _ _ => none) (fun _ => none) ⟨0, 0⟩ e).1
  move
    | 2, _ => .begin (.add [65] [107] [97], [98])
    | _, _ => .step 0
  guess v := match v with
    | [_, .request _ ⟨.put _ _ data, _⟩] => match (toyPrims.unmarshal data).bind SealedNode.ofJ with
      | some sn => sn.ciphertext.bytes.take (⟨[98], 1⟩ : Node).toJ.render.length == (⟨[98], 1⟩ : Node).toJ.render
      | none => false
    | _ => false

theorem readable_node (right : Bool) (key : BytesN 32) (nonce : BytesN 12) (aad : Bytes) :
    ((gcmBox toyPrims key.1 nonce.1 aad (⟨bif right then [98] else [97], 1⟩ : Node).toJ.render).take
      (⟨[98], 1⟩ : Node).toJ.render.length == (⟨[98], 1⟩ : Node).toJ.render) = right := by
  have h : ∀ m : Bytes, m.length = (⟨[98], 1⟩ : Node).toJ.render.length →
      (gcmBox toyPrims key.1 nonce.1 aad m).take (⟨[98], 1⟩ : Node).toJ.render.length = m := by
    intro m hm
    show ((m ++ toyTag key.1 nonce.1 aad m) ++ nonce.1).take _ = m
    rw [List.append_assoc, List.take_append_of_le_length (by omega), List.take_of_length_le (by omega)]
  cases right
  · rw [h _ (by decide)]; decide
  · rw [h _ (by decide)]; decide

theorem C105_case : gap (contestGame (idContest toyPrims toyIndex 5 id false) idSpy 3)
    (contestGame (idContest toyPrims toyIndex 5 id true) idSpy 3) = 1 := by
  refine gap_sure (fun right => contestGame (idContest toyPrims toyIndex 5 id right) idSpy 3) fun right => ?_
  unfold contestGame
  have hf : ∀ key : BytesN 32, (idContest toyPrims toyIndex 5 (R := IxRes) id right key).fair [] (.add [65] [107] [97], [98]) := by
    intro key
    refine ⟨?_, ?_⟩
    · rintro _ ⟨⟩; decide
    · rintro _ _ ⟨⟩; decide
  refine Eq.trans (congrArg (PMF.bind _) (funext fun key => ?_)) (PMF.bind_const _ _)
  obtain ⟨k, hk, hk'⟩ := add_first toyLaws toyIndex key 4 (t := [65]) (kw := [107]) (id := bif right then [98] else [97]) rfl
  have hp : (idContest toyPrims toyIndex 5 (R := IxRes) id right key).prog (.add [65] [107] [97], [98]) =
      .op (.get (ixLabel toyPrims (toyIndex.withKey key) [107] 0) dtNode) fun r =>
        (k r).bind fun r => .ret (idShown id right (.add [65] [107] [97], [98]) r) := by
    show (ixProg toyPrims (toyIndex.withKey key) 5 (idCall right (.add [65] [107] [97], [98]))).bind _ = _
    have : idCall right (.add [65] [107] [97], [98]) = .add [65] [107] (bif right then [98] else [97]) := by
      cases right <;> rfl
    rw [this, hk]; rfl
  rw [contest_begin idSpy _ (rfl : idSpy.move 2 [] = _) (hf key), List.nil_append, hp,
    contest_op idSpy _ (rfl : idSpy.move 1 [] = _) rfl rfl rfl,
    show idSpy.answer [] (.get (ixLabel toyPrims (toyIndex.withKey key) [107] 0) dtNode) = .error .notFound from rfl, hk',
    contest_boxed idSpy _ (rfl : idSpy.move 0 _ = .step 0) rfl (fun _ _ => rfl)]
  refine Eq.trans (congrArg (PMF.bind _) (funext fun key' => Eq.trans (congrArg (PMF.bind _) (funext fun nonce => ?_))
    (PMF.bind_const _ _))) (PMF.bind_const _ _)
  refine congrArg PMF.pure ?_
  simp only [idSpy, List.nil_append, List.singleton_append, toyLaws.unmarshal_render, Option.bind_some, SealedNode.ofJ_toJ]
  exact readable_node right key' nonce _

/-- The adversary has an identifier added and searches for it. -/
def idReader : Spy IdCall IxRes where
  answer v e := match v, e with
    | [_, .request _ ⟨.put _ _ data, _⟩], .get _ _ => .ok data
    | _, e => (Store.exec (fun _ _ => none) (fun _ => none) ⟨0, 0⟩ e).1
  move
    | 6, _ => .begin (.add [65] [107] [97], [98])
    | 3, _ => .begin (.search [65] [107], [])
    | 5, _ => .step 0
    | 4, _ => .step 0
    | _, _ => .step 1
  guess v := match v with
    | [_, _, _, _, .result _ (.ok (.ids [[97]]))] => true
    | _ => false

/-- C105: on both sides a search returns what was proposed for the left one. -/
theorem C105_shown (right : Bool) : contestGame (idContest toyPrims toyIndex 5 id right) idReader 7 = PMF.pure true := by
  unfold contestGame
  have hf : ∀ key : BytesN 32, (idContest toyPrims toyIndex 5 (R := IxRes) id right key).fair [] (.add [65] [107] [97], [98]) := by
    intro key
    refine ⟨?_, ?_⟩
    · rintro _ ⟨⟩; decide
    · rintro _ _ ⟨⟩; decide
  have hf' : ∀ key : BytesN 32, (idContest toyPrims toyIndex 5 (R := IxRes) id right key).fair
      [(.add [65] [107] [97], [98])] (.search [65] [107], []) := by
    intro key
    exact ⟨nofun, nofun⟩
  refine Eq.trans (congrArg (PMF.bind _) (funext fun key => ?_)) (PMF.bind_const _ _)
  obtain ⟨k, hk, hk'⟩ := add_first toyLaws toyIndex key 4 (t := [65]) (kw := [107]) (id := bif right then [98] else [97]) rfl
  have hp : (idContest toyPrims toyIndex 5 (R := IxRes) id right key).prog (.add [65] [107] [97], [98]) =
      .op (.get (ixLabel toyPrims (toyIndex.withKey key) [107] 0) dtNode) fun r =>
        (k r).bind fun r => .ret (idShown id right (.add [65] [107] [97], [98]) r) := by
    show (ixProg toyPrims (toyIndex.withKey key) 5 (idCall right (.add [65] [107] [97], [98]))).bind _ = _
    have : idCall right (.add [65] [107] [97], [98]) = .add [65] [107] (bif right then [98] else [97]) := by
      cases right <;> rfl
    rw [this, hk]; rfl
  rw [contest_begin idReader _ (rfl : idReader.move 6 [] = _) (hf key), List.nil_append, hp,
    contest_op idReader _ (rfl : idReader.move 5 [] = _) rfl rfl rfl,
    show idReader.answer [] (.get (ixLabel toyPrims (toyIndex.withKey key) [107] 0) dtNode) = .error .notFound from rfl, hk',
    contest_boxed idReader _ (rfl : idReader.move 4 _ = .step 0) rfl (fun _ _ => rfl)]
  refine Eq.trans (congrArg (PMF.bind _) (funext fun key' => Eq.trans (congrArg (PMF.bind _) (funext fun nonce => ?_))
    (PMF.bind_const _ _))) (PMF.bind_const _ _)
  obtain ⟨k, k', hk, hk', hk''⟩ := search_one toyLaws toyIndex key 3 (t := [65]) (kw := [107])
    (n := ⟨bif right then [98] else [97], 1⟩) (by show 1 < 2 ^ 64; decide) key' nonce rfl
  have hp : (idContest toyPrims toyIndex 5 (R := IxRes) id right key).prog (.search [65] [107], []) =
      .op (.get (ixLabel toyPrims (toyIndex.withKey key) [107] 0) dtNode) fun r =>
        (k r).bind fun r => .ret (idShown id right (.search [65] [107], []) r) := by
    show (ixProg toyPrims (toyIndex.withKey key) 5 (idCall right (.search [65] [107], []))).bind _ = _
    have : idCall right (.search [65] [107], []) = .search [65] [107] := by
      cases right <;> rfl
    rw [this, hk]; rfl
  rw [contest_begin idReader _ (rfl : idReader.move 3 _ = _) (hf' key), hp,
    contest_get idReader _ (.ok (sealedNode toyPrims (toyIndex.withKey key) [107] 0 ⟨bif right then [98] else [97], 1⟩ key'
      nonce).toJ.render) (rfl : idReader.move 2 _ = .step 1) rfl rfl rfl,
    contest_get idReader _ (.error .notFound) (rfl : idReader.move 1 _ = .step 1) rfl (congrArg (Prog.bind · _) hk') rfl,
    contest_result idReader _ (rfl : idReader.move 0 _ = .step 1) rfl (congrArg (Prog.bind · _) hk'')]
  cases right <;> rfl

end D1
