import Verif.Spec.Contest
import Verif.Proofs.Agent
import Verif.Props.Confidential
import Verif.Props.Authentic
import Verif.Props.GroupNames
/-!
# C107: contents of objects are secret from those who were not given access

C95 and C99 in one game.  The adversary is the IO Provider and the clock, decides which calls are made, on whose behalf and in
which order their steps are taken, and sees all requests and what the calls answer.  It knows neither the object key nor the
access key.  For the calls that take a plaintext it proposes two, and in all calls of one game the left ones are taken, or the
right ones.  It has to tell which.  What `Decrypt` answers to a caller who was not given access to the object it is shown in
any case.
-/
namespace D1
open Spec Prog

/-! ## Specification -/

/-- A challenge: what the Identity Provider answers, and two calls that differ at most in the plaintext of an object. -/
abbrev GuestCall : Type := Except Err Identity × CallPair

/-- The call of one side. -/
def guestCall (right : Bool) (x : GuestCall) : AsWhom := (x.1, if right then x.2.1.2 else x.2.1.1)

/-- The plaintext is one of two different ones that were proposed together. -/
def Proposed (cs : List (Option GuestCall)) (p : NBytes) : Prop :=
  ∃ x, some x ∈ cs ∧ ∃ y ∈ objectPairs x.2, y.1 ≠ y.2 ∧ (p = y.1 ∨ p = y.2)

/-- The caller can decrypt the object: `Encrypt` or `AddGroupsToAccess` gave access to a group of the caller that has the scope, or to
the caller. -/
def Invited (cs : List (Option GuestCall)) (v : List (Sight Res)) (who : Except Err Identity) (oid : Oid) : Prop :=
  ∃ f, needsRight who scopeDecrypt oid f ∧ accessTerms.Vouched (cs.map (Option.map (guestCall false))) v f

open Classical in
/-- What is shown of a result of program `j`.  If `Decrypt` has a proposed plaintext as its result, then this is withheld, but
only if the caller was given access to the object. -/
noncomputable def withheld (cs : List (Option GuestCall)) (v : List (Sight Res)) (j : Nat) (r : Res) : Res :=
  match cs[j]?, r with
  | some (some x), .object o =>
    if Proposed cs o.plaintext ∧ ∀ t oid, x.2.1.1 = .decrypt t oid → Invited cs v x.1 oid then .unit else r
  | _, _ => r

/-- `n` moves of the adversary, and its guess. -/
noncomputable def Spy.guests (A : Spy GuestCall Res) (prog : GuestCall → Prog Res) :
    Nat → List (Option GuestCall) → List (Sight Res) → List (Prog Res) → PMF Bool
  | 0, _, v, _ => PMF.pure (A.guess v)
  | n + 1, cs, v, ps =>
    match A.move n v with
    | .stop => PMF.pure (A.guess v)
    | .begin x => A.guests prog n (cs ++ [some x]) v (ps ++ [prog x])
    | .other p => A.guests prog n (cs ++ [none]) v (ps ++ [p])
    | .step j =>
      match ps[j]? with
      | none => A.guests prog n cs v ps
      | some p => (settle p).bind fun q =>
        match nextStep q with
        | .inl o => A.guests prog n cs (v ++ [.result j (o.map (withheld cs v j))]) (ps.set j q)
        | .inr ⟨e, k⟩ => A.guests prog n cs (v ++ [.request j ⟨e, A.answer v e⟩]) (ps.set j (k (A.answer v e)))

/-- The program of a challenge. -/
def guestProg (P : Prims) (d : D1) (right : Bool) (kek aek : BytesN 32) (x : GuestCall) : Prog Res :=
  callProg P ((d.withKek kek).withAek aek x.1) (guestCall right x).2

/-- The game: a random object key, a random access key, and `n` moves. -/
noncomputable def guestGame (P : Prims) (d : D1) (right : Bool) (A : Spy GuestCall Res) (n : Nat) : PMF Bool :=
  (unif 32).bind fun kek => (unif 32).bind fun aek => A.guests (guestProg P d right kek aek) n [] [] []

/-! ## The adversary in the other games -/

/-- What is shown in the game of C95, as it is shown here. -/
def undress : Reply Res → Res
  | .plain r => r
  | .opened p ad => .object ⟨p, ad⟩
  | .hidden _ => .unit

def Sight.map {α β : Type} (f : α → β) : Sight α → Sight β
  | .request j ev => .request j ev
  | .result j o => .result j (o.map f)

/-- The adversary in the game of C95. -/
def Spy.dressed (A : Spy GuestCall Res) : Spy GuestCall (Reply Res) where
  answer u := A.answer (u.map (Sight.map undress))
  move n u := match A.move n (u.map (Sight.map undress)) with
    | .stop => .stop
    | .begin x => .begin x
    | .other p => .other (p.bind fun r => .ret (.plain r))
    | .step j => .step j
  guess u := A.guess (u.map (Sight.map undress))

/-- The adversary in the game of C99.  It remembers the challenges, and what is shown here. -/
noncomputable def Spy.agent (A : Spy GuestCall Res) (right : Bool) : Agent (List (Option GuestCall) × List (Sight Res)) AsWhom Res where
  answer s := A.answer s.2
  move n s := match A.move n s.2 with
    | .stop => .stop
    | .begin x => .begin (guestCall right x)
    | .other p => .other p
    | .step j => .step j
  begun n s := match A.move n s.2 with
    | .begin x => (s.1 ++ [some x], s.2)
    | .other _ => (s.1 ++ [none], s.2)
    | _ => s
  saw s z := match z with
    | .request j ev => (s.1, s.2 ++ [.request j ev])
    | .result j o => (s.1, s.2 ++ [.result j (o.map (withheld s.1 s.2 j))])

/-! ## The games are the same, unless somebody without access has a result -/

theorem chance_bind_add {α : Type} (p : PMF α) (f g h : α → PMF Bool) (hf : ∀ a, chance (f a) ≤ chance (g a) + chance (h a)) :
    chance (p.bind f) ≤ chance (p.bind g) + chance (p.bind h) := by
  rw [chance, chance, chance, ← ENNReal.toReal_add (PMF.apply_ne_top _ _) (PMF.apply_ne_top _ _)]
  refine ENNReal.toReal_mono (ENNReal.add_ne_top.mpr ⟨PMF.apply_ne_top _ _, PMF.apply_ne_top _ _⟩) ?_
  rw [PMF.bind_apply, PMF.bind_apply, PMF.bind_apply, ← ENNReal.tsum_add]
  refine ENNReal.tsum_le_tsum fun a => ?_
  rw [← mul_add]
  refine mul_le_mul_right ?_ _
  have := hf a
  rw [chance, chance, chance, ← ENNReal.toReal_add (PMF.apply_ne_top _ _) (PMF.apply_ne_top _ _)] at this
  exact (ENNReal.toReal_le_toReal (PMF.apply_ne_top _ _) (ENNReal.add_ne_top.mpr ⟨PMF.apply_ne_top _ _, PMF.apply_ne_top _ _⟩)).mp this

/-- Two experiments that are the same, but for a third. -/
def Near (p q e : PMF Bool) : Prop := chance p ≤ chance q + chance e ∧ chance q ≤ chance p + chance e

theorem near_bind {α : Type} (p : PMF α) {f g h : α → PMF Bool} (hf : ∀ a, Near (f a) (g a) (h a)) :
    Near (p.bind f) (p.bind g) (p.bind h) :=
  ⟨chance_bind_add p f g h fun a => (hf a).1, chance_bind_add p g f h fun a => (hf a).2⟩

theorem chance_nonneg (p : PMF Bool) : 0 ≤ chance p := ENNReal.toReal_nonneg

theorem chance_le_one (p : PMF Bool) : chance p ≤ 1 := by
  have := ENNReal.toReal_mono ENNReal.one_ne_top (PMF.coe_le_one p true)
  simpa [chance] using this

theorem near_refl (p e : PMF Bool) : Near p p e := ⟨le_add_of_nonneg_right (chance_nonneg e), le_add_of_nonneg_right (chance_nonneg e)⟩

theorem near_true (p q : PMF Bool) : Near p q (PMF.pure true) := by
  have := chance_le_one p
  have := chance_le_one q
  have := chance_nonneg p
  have := chance_nonneg q
  rw [Near, chance_true]
  constructor <;> linarith

/-- A program as it is in the game of C95. -/
def dress (c : Option GuestCall) (p : Prog Res) : Prog (Reply Res) :=
  p.bind fun r => .ret (if c.isSome then tell id r else .plain r)

theorem settle_map {α β γ : Type} (f : α → β) (p : Prog α) (F : Prog β → PMF γ) :
    (settle (p.bind fun r => .ret (f r))).bind F = (settle p).bind fun q => F (q.bind fun r => .ret (f r)) := by
  induction p with
  | op e k ih =>
    cases e with
    | rand n =>
      simp only [Prog.bind, settle, PMF.bind_bind]
      exact congrArg (PMF.bind _) (funext fun b => ih _)
    | _ => simp only [Prog.bind, settle, PMF.pure_bind]
  | _ => simp only [Prog.bind, settle, PMF.pure_bind]

theorem nextStep_map {α β : Type} (f : α → β) (q : Prog α) : nextStep (q.bind fun r => .ret (f r)) =
    match nextStep q with
    | .inl o => .inl (o.map f)
    | .inr ⟨e, k⟩ => .inr ⟨e, fun r => (k r).bind fun r => .ret (f r)⟩ := by
  cases q <;> rfl

theorem brings_side {x : GuestCall} (right : Bool) {f : Right} {H H' : Outcome Res ⊕ Eff → Prop} (hH : ∀ e, H (.inr e) ↔ H' (.inr e)) :
    accessTerms.brings (guestCall right x) f H ↔ accessTerms.brings (guestCall false x) f H' := by
  obtain ⟨who, ⟨l, r⟩, hx⟩ := x
  cases l with
  | encrypt t o gs =>
    cases r with
    | encrypt t' o' gs' =>
      obtain ⟨rfl, rfl, -⟩ := hx
      cases right <;> simp only [accessTerms, guestCall, if_true, Bool.false_eq_true, if_false, hH]
    | _ => exact nomatch hx
  | update t oid o =>
    cases r with
    | update t' oid' o' => cases right <;> exact Iff.rfl
    | _ => exact nomatch hx
  | _ =>
    obtain rfl : r = _ := by cases r <;> exact hx
    cases right <;> simp only [accessTerms, guestCall, if_true, Bool.false_eq_true, if_false, hH]

theorem vouched_side (right : Bool) (cs : List (Option GuestCall)) {v w : List (Sight Res)}
    (hv : ∀ j ev, Sight.request j ev ∈ v ↔ Sight.request j ev ∈ w) (f : Right) :
    accessTerms.Vouched (cs.map (Option.map (guestCall right))) v f ↔ accessTerms.Vouched (cs.map (Option.map (guestCall false))) w f := by
  have h : ∀ (right : Bool) v, accessTerms.Vouched (cs.map (Option.map (guestCall right))) v f ↔
      ∃ i x, cs[i]? = some (some x) ∧ accessTerms.brings (guestCall right x) f (Shown v i) := by
    intro right v
    constructor
    · rintro ⟨i, y, hy, hb⟩
      rw [List.getElem?_map, Option.map_eq_some_iff] at hy
      obtain ⟨c, hc, hy⟩ := hy
      rw [Option.map_eq_some_iff] at hy
      obtain ⟨x, rfl, rfl⟩ := hy
      exact ⟨i, x, hc, hb⟩
    · rintro ⟨i, x, hx, hb⟩
      exact ⟨i, guestCall right x, by rw [List.getElem?_map, hx]; rfl, hb⟩
  rw [h, h]
  refine exists_congr fun i => exists_congr fun x => and_congr_right fun _ => brings_side right fun e => ?_
  exact exists_congr fun r => hv _ _

theorem zipWith_set {α β γ : Type} (f : α → β → γ) : ∀ (l : List α) (l' : List β) (j : Nat) (a : α) (b : β), l[j]? = some a →
    (l.zipWith f l').set j (f a b) = l.zipWith f (l'.set j b)
  | [], _, _, _, _, h => nomatch h
  | _ :: _, [], _, _, _, _ => by simp
  | x :: l, y :: l', 0, a, b, h => by
    obtain rfl : x = a := by simpa using h
    rfl
  | x :: l, y :: l', j + 1, a, b, h => by
    simp only [List.zipWith_cons_cons, List.set_cons_succ]
    rw [zipWith_set f l l' j a b (by simpa using h)]

/-- What C95 shows is what is shown here. -/
theorem shown_alike {cs : List (Option GuestCall)} {v w : List (Sight Res)} {h : List (NBytes × NBytes)} {right : Bool}
    (hh : ∀ p, (h.any fun x => x.1 ≠ x.2 && (p = x.1 || p = x.2)) = true ↔ Proposed cs p)
    (hv : ∀ j ev, Sight.request j ev ∈ v ↔ Sight.request j ev ∈ w) {j : Nat} {c : Option GuestCall} (hc : cs[j]? = some c)
    {o : Outcome Res}
    (ho : ¬∃ r, o = .ok r ∧ accessTerms.Unfounded (cs.map (Option.map (guestCall right))) v j (.inl r)) :
    (maskOutcome h (o.map fun r => if c.isSome then tell id r else .plain r)).map undress = o.map (withheld cs w j) := by
  cases o with
  | ok r =>
    simp only [Outcome.map, maskOutcome, Outcome.ok.injEq]
    cases c with
    | none => 
      simp only [withheld, hc, Option.isSome_none, Bool.false_eq_true, if_false, Reply.masked, undress]
    | some x =>
      simp only [Option.isSome_some, if_true]
      cases r with
      | object o =>
        simp only [withheld, hc, tell, Reply.masked]
        have hinv : ∀ t oid, x.2.1.1 = .decrypt t oid → Invited cs w x.1 oid := by
          intro t oid hx
          by_contra hn
          refine ho ⟨_, rfl, guestCall right x, needsRight x.1 scopeDecrypt oid, by rw [List.getElem?_map, hc]; rfl, ?_, ?_⟩
          · obtain ⟨who, ⟨l, r⟩, hx'⟩ := x
            dsimp only at hx
            subst hx
            obtain rfl : r = _ := by cases r <;> exact hx'
            cases right <;> rfl
          · rintro ⟨f, hf, hvf⟩
            exact hn ⟨f, hf, (vouched_side right cs hv f).mp hvf⟩
        by_cases hp : Proposed cs o.plaintext
        · rw [if_pos ((hh _).mpr hp), if_pos ⟨hp, hinv⟩]; rfl
        · rw [if_neg (fun hc => hp ((hh _).mp hc)), if_neg (fun hc => hp hc.1)]; rfl
      | _ => simp only [withheld, hc, tell, Reply.masked, undress, id]
  | _ => rfl

/-- The challenges of C95. -/
def guestGameOf (P : Prims) (d : D1) (right : Bool) (kek aek : BytesN 32) : Challenges GuestCall Res where
  pairs x := objectPairs x.2
  prog x := (guestProg P d right kek aek x).bind fun r => .ret (tell id r)

theorem guests_near (A : Spy GuestCall Res) (P : Prims) (d : D1) (right : Bool) (kek aek : BytesN 32) : ∀ (n : Nat)
    (cs : List (Option GuestCall)) (v w : List (Sight Res)) (u : List (Sight (Reply Res))) (h : List (NBytes × NBytes)) (ps : List (Prog Res)),
      cs.length = ps.length → u.map (Sight.map undress) = w →
      (∀ p, (h.any fun x => x.1 ≠ x.2 && (p = x.1 || p = x.2)) = true ↔ Proposed cs p) →
      (∀ j ev, Sight.request j ev ∈ v ↔ Sight.request j ev ∈ w) →
      Near (A.guests (guestProg P d right kek aek) n cs w ps)
        (A.dressed.late (guestGameOf P d right kek aek) n h u (cs.zipWith dress ps))
        ((A.agent right).trial (fun x => callProg P ((d.withKek kek).withAek aek x.1) x.2) accessTerms n (cs, w)
          (cs.map (Option.map (guestCall right))) v ps) := by
  intro n
  induction n with
  | zero =>
    intro cs v w u h ps _ hu _ _
    simp only [Spy.guests, Spy.late, Spy.dressed, hu]
    exact near_refl _ _
  | succ n ih =>
    intro cs v w u h ps hl hu hh hv
    simp only [Spy.guests, Spy.late, Agent.trial]
    simp only [Spy.dressed, Spy.agent, hu]
    cases hm : A.move n w with
    | stop => exact near_refl _ _
    | begin x =>
      dsimp only
      have := ih (cs ++ [some x]) v w u (objectPairs x.2 ++ h) (ps ++ [guestProg P d right kek aek x])
        (by rw [List.length_append, List.length_append, hl]; rfl) hu ?_ hv
      · rw [List.zipWith_append hl, List.map_append] at this
        exact this
      · intro p
        rw [List.any_append, Bool.or_eq_true, hh p, List.any_eq_true]
        simp only [Proposed, List.mem_append, List.mem_singleton, Option.some.injEq, Bool.and_eq_true, decide_eq_true_eq,
          Bool.or_eq_true]
        constructor
        · rintro (⟨y, hy⟩ | ⟨z, hz, hy⟩)
          · exact ⟨x, .inr rfl, y, hy⟩
          · exact ⟨z, .inl hz, hy⟩
        · rintro ⟨z, hz | rfl, hy⟩
          · exact .inr ⟨z, hz, hy⟩
          · exact .inl hy
    | other p =>
      dsimp only
      have := ih (cs ++ [none]) v w u h (ps ++ [p])
        (by rw [List.length_append, List.length_append, hl]; rfl) hu ?_ hv
      · rw [List.zipWith_append hl, List.map_append] at this
        exact this
      · intro p
        rw [hh p]
        simp only [Proposed, List.mem_append, List.mem_singleton, reduceCtorEq, or_false]
    | step j =>
      dsimp only
      cases hj : ps[j]? with
      | none =>
        have hz : (cs.zipWith dress ps)[j]? = none := by
          rw [List.getElem?_eq_none_iff] at hj ⊢
          rw [List.length_zipWith]
          omega
        rw [hz]
        exact ih cs v w u h ps hl hu hh hv
      | some p =>
        have hlt : j < cs.length := by
          rw [hl]
          by_contra hc
          rw [List.getElem?_eq_none (by omega)] at hj
          exact nomatch hj
        obtain ⟨c, hc⟩ : ∃ c, cs[j]? = some c := ⟨_, List.getElem?_eq_getElem hlt⟩
        have hz : (cs.zipWith dress ps)[j]? = some (dress c p) := by
          rw [List.getElem?_zipWith, hc, hj]
        rw [hz]
        dsimp only
        rw [dress, settle_map]
        refine near_bind _ fun q => ?_
        rw [nextStep_map]
        cases hq : nextStep q with
        | inl o =>
          dsimp only
          by_cases ho : ∃ r, o = .ok r ∧ accessTerms.Unfounded (cs.map (Option.map (guestCall right))) v j (.inl r)
          · rw [if_pos ho]
            exact near_true _ _
          · rw [if_neg ho]
            have := ih cs (v ++ [.result j o]) (w ++ [.result j (o.map (withheld cs w j))])
              (u ++ [.result j (maskOutcome h (o.map fun r => if c.isSome then tell id r else .plain r))]) h (ps.set j q)
              (by rw [List.length_set, hl]) ?_ hh ?_
            · rw [← zipWith_set dress cs ps j c q hc] at this
              exact this
            · rw [List.map_append, hu, ← shown_alike hh hv hc ho]
              rfl
            · intro i ev
              simp only [List.mem_append, List.mem_singleton, reduceCtorEq, or_false, hv]
        | inr y =>
          obtain ⟨e, k⟩ := y
          dsimp only
          by_cases ho : accessTerms.Unfounded (cs.map (Option.map (guestCall right))) v j (.inr e)
          · rw [if_pos ho]
            exact near_true _ _
          · rw [if_neg ho]
            have := ih cs (v ++ [.request j ⟨e, A.answer w e⟩]) (w ++ [.request j ⟨e, A.answer w e⟩])
              (u ++ [.request j ⟨e, A.answer w e⟩]) h (ps.set j (k (A.answer w e)))
              (by rw [List.length_set, hl]) ?_ hh ?_
            · rw [← zipWith_set dress cs ps j c _ hc] at this
              exact this
            · rw [List.map_append, hu]
              rfl
            · intro i ev
              simp only [List.mem_append, hv]

/-! ## The bound -/

section
variable {P : Prims} (L : P.Laws) (d : D1) (A : Spy GuestCall Res) (n : Nat)

/-- The challenges with sealing and opening of objects left open. -/
def guestS (P : Prims) (d : D1) (aek : BytesN 32) (x : GuestCall) : SProg Res := objectS P (d.withAek aek x.1) id x.2

/-- The attack on the key wrapping for objects: the access key is drawn by the attack. -/
def guestWrap (P : Prims) (d : D1) (A : Spy GuestCall Res) (n : Nat) (right : Bool) : OAdv WrapAsk WrapAsk.Ans :=
  .toss 32 fun aek => wrapAttack P (fun x => objectPairs x.2) (guestS P d aek) A.dressed n right

/-- The attack on AES-GCM for objects. -/
def guestSeal (P : Prims) (d : D1) (A : Spy GuestCall Res) (n : Nat) : OAdv SealAsk SealAsk.Ans :=
  .toss 32 fun aek => sealAttack P (fun x => objectPairs x.2) (guestS P d aek) A.dressed n

/-- The attack on the key wrapping for access records: the object key is drawn by the attack. -/
noncomputable def guestUnwrap (P : Prims) (d : D1) (A : Spy GuestCall Res) (n : Nat) (right : Bool) : OAdv WrapAsk WrapAsk.Ans :=
  .toss 32 fun kek => unwrapAttack P (accessI P (d.withKek kek)) accessTerms ((A.agent right).spy n ([], [])) n

/-- The forger of access records. -/
noncomputable def guestForge (P : Prims) (d : D1) (A : Spy GuestCall Res) (n : Nat) (right : Bool) : OAdv ForgeAsk ForgeAsk.Ans :=
  .toss 32 fun kek => forgeAttack P (accessI P (d.withKek kek)) accessTerms ((A.agent right).spy n ([], [])) n

theorem bind_swap {α β γ : Type} (p : PMF α) (q : PMF β) (f : α → β → PMF γ) :
    (p.bind fun a => q.bind fun b => f a b) = q.bind fun b => p.bind fun a => f a b := PMF.bind_comm _ _ _

/-- The game of C95, with a random access key. -/
noncomputable def dressedGame (P : Prims) (d : D1) (right : Bool) (A : Spy GuestCall Res) (n : Nat) : PMF Bool :=
  (unif 32).bind fun aek => spyGame (fun kek => guestGameOf P d right kek aek) A.dressed n

/-- The game of C99, with a random object key. -/
noncomputable def intruderGame (P : Prims) (d : D1) (right : Bool) (A : Spy GuestCall Res) (n : Nat) : PMF Bool :=
  (unif 32).bind fun kek => trialGame (fun aek x => callProg P ((d.withKek kek).withAek aek x.1) x.2) accessTerms
    ((A.agent right).spy n ([], [])) n

theorem game_near (P : Prims) (right : Bool) :
    Near (guestGame P d right A n) (dressedGame P d right A n) (intruderGame P d right A n) := by
  simp only [guestGame, dressedGame, intruderGame, spyGame_late, trialGame, Agent.trial_spy_start]
  rw [bind_swap (unif 32) (unif 32) fun aek kek => A.dressed.late (guestGameOf P d right kek aek) n [] [] []]
  exact near_bind _ fun kek => near_bind _ fun aek =>
    guests_near A P d right kek aek n [] [] [] [] [] [] rfl rfl (fun p => by simp [Proposed]) fun _ _ => Iff.rfl

include L

theorem guestGameOf_eq (right : Bool) (aek : BytesN 32) : (fun kek => guestGameOf P d right kek aek) =
    fun kek => challenges P (fun x => objectPairs x.2) (guestS P d aek) kek right := by
  funext kek
  rw [guestGameOf, challenges]
  congr 1; funext x
  exact (expand_chalS L (d.withAek aek x.1) id _ _ x.2.2 kek right).symm

omit L in
theorem named_guestS (P : Prims) (d : D1) (aek : BytesN 32) (x : GuestCall) : (guestS P d aek x).Named (objectPairs x.2) :=
  named_objectS P (d.withAek aek x.1) id x.2

theorem dressed_gap : gap (dressedGame P d false A n) (dressedGame P d true A n) ≤
    wrapGap P (guestWrap P d A n false) + sealGap P (guestSeal P d A n) + wrapGap P (guestWrap P d A n true) := by
  have h1 : ∀ right, dressedGame P d right A n = (unif 32).bind fun kek => (guestWrap P d A n right).play (wrapReal P kek) () := by
    intro right
    simp only [dressedGame, guestWrap, OAdv.play]
    rw [bind_swap (unif 32) (unif 32) fun kek aek =>
      (wrapAttack P (fun x => objectPairs x.2) (guestS P d aek) A.dressed n right).play (wrapReal P kek) ()]
    refine congrArg (PMF.bind _) (funext fun aek => ?_)
    rw [guestGameOf_eq L]
    exact spy_real L (named_guestS P d aek) A.dressed n right
  have h2 : ∀ right, (guestSeal P d A n).play (sealOracle P right) [] =
      (unif 32).bind fun kek => (guestWrap P d A n right).play (wrapIdeal P kek) [] := by
    intro right
    simp only [guestSeal, guestWrap, OAdv.play]
    rw [bind_swap (unif 32) (unif 32) fun kek aek =>
      (wrapAttack P (fun x => objectPairs x.2) (guestS P d aek) A.dressed n right).play (wrapIdeal P kek) []]
    refine congrArg (PMF.bind _) (funext fun aek => ?_)
    exact spy_ideal L (fun x => objectPairs x.2) (guestS P d aek) A.dressed n right
  simp only [wrapGap, sealGap, ← h1, ← h2, gap]
  generalize chance (dressedGame P d false A n) = a
  generalize chance (dressedGame P d true A n) = b
  generalize chance (OAdv.play (sealOracle P false) _ _) = c
  generalize chance (OAdv.play (sealOracle P true) _ _) = e
  have := abs_sub_le a c b
  have := abs_sub_le c e b
  rw [abs_sub_comm e b] at this
  linarith

theorem intruder_chance (right : Bool) : chance (intruderGame P d right A n) ≤
    wrapGap P (guestUnwrap P d A n right) + forgeGap P (guestForge P d A n right) := by
  have h1 : intruderGame P d right A n = (unif 32).bind fun kek => (guestUnwrap P d A n right).play (wrapReal P kek) () := by
    simp only [intruderGame, guestUnwrap, OAdv.play]
    rw [bind_swap (unif 32) (unif 32) fun aek kek => (unwrapAttack P (accessI P (d.withKek kek)) accessTerms
      ((A.agent right).spy n ([], [])) n).play (wrapReal P aek) ()]
    refine congrArg (PMF.bind _) (funext fun kek => ?_)
    rw [← trial_real L]
    simp only [expand_accessI L]
  have h2 : (guestForge P d A n right).play (forgeOracle P true) [] =
      (unif 32).bind fun kek => (guestUnwrap P d A n right).play (wrapIdeal P kek) [] := by
    simp only [guestForge, guestUnwrap, OAdv.play]
    rw [bind_swap (unif 32) (unif 32) fun aek kek => (unwrapAttack P (accessI P (d.withKek kek)) accessTerms
      ((A.agent right).spy n ([], [])) n).play (wrapIdeal P aek) []]
    exact congrArg (PMF.bind _) (funext fun kek => trial_ideal L _ _ _ n)
  have h3 : (guestForge P d A n right).play (forgeOracle P false) [] = PMF.pure false := by
    simp only [guestForge, OAdv.play]
    exact Eq.trans (congrArg (PMF.bind _) (funext fun kek => trial_shut L (keeps_accessI L _) _ n)) (PMF.bind_const _ _)
  simp only [wrapGap, forgeGap, ← h1, ← h2, h3, gap]
  have h0 : chance (PMF.pure false) = 0 := by simp [chance]
  rw [h0, sub_zero]
  generalize chance (intruderGame P d right A n) = a
  generalize chance _ = b
  have h4 := le_abs_self (a - b)
  have h5 := le_abs_self b
  linarith

/-- C107: whoever can tell which contents are stored, without having them shown to somebody who was given access, tells wrapped keys
apart, tells AES-GCM ciphertexts apart, or forges them. -/
theorem C107_outsiders : gap (guestGame P d false A n) (guestGame P d true A n) ≤
    wrapGap P (guestWrap P d A n false) + sealGap P (guestSeal P d A n) + wrapGap P (guestWrap P d A n true) +
      (wrapGap P (guestUnwrap P d A n false) + forgeGap P (guestForge P d A n false)) +
      (wrapGap P (guestUnwrap P d A n true) + forgeGap P (guestForge P d A n true)) := by
  have h := dressed_gap L d A n
  have hl := game_near d A n P false
  have hr := game_near d A n P true
  have il := intruder_chance L d A n false
  have ir := intruder_chance L d A n true
  simp only [gap, Near] at h hl hr ⊢
  rw [abs_le] at h ⊢
  constructor <;> linarith

omit L in
/-- C107: the attacks ask no more than two questions for a move of the adversary. -/
theorem C107_questions : (guestSeal P d A n).Asks n ∧ ∀ right, (guestWrap P d A n right).Asks n ∧
    (guestUnwrap P d A n right).Asks (2 * n) ∧ (guestForge P d A n right).Asks (2 * n) := by
  have hb : ∀ aek x, (guestS P d aek x).Boxes 1 := fun aek x => boxes_objectS P (d.withAek aek x.1) id x.2
  exact ⟨fun aek => asks_sealAttack P (hb aek) A.dressed n, fun right => ⟨fun aek => asks_wrapAttack P (hb aek) A.dressed n right,
    fun kek => bursts_unwrapAttack P accessTerms (bursts_accessI _) _ n, fun kek => bursts_forgeAttack P accessTerms (bursts_accessI _) _ n⟩⟩

end

/-! ## Cases

With primitives that make no use of their keys the adversary makes up an access record.  User `B`, who was not given access, is
shown the contents, so the right hand side of the theorem is at least 1.  What `A` reads is withheld. -/

section
variable (A : Spy GuestCall Res) (prog : GuestCall → Prog Res) {n : Nat} {cs : List (Option GuestCall)} {v : List (Sight Res)}
  {ps : List (Prog Res)} {j : Nat}

theorem guests_step {p : Prog Res} (hm : A.move n v = .step j) (hp : ps[j]? = some p) :
    A.guests prog (n + 1) cs v ps = (settle p).bind fun q =>
      match nextStep q with
      | .inl o => A.guests prog n cs (v ++ [.result j (o.map (withheld cs v j))]) (ps.set j q)
      | .inr ⟨e, k⟩ => A.guests prog n cs (v ++ [.request j ⟨e, A.answer v e⟩]) (ps.set j (k (A.answer v e))) := by
  simp only [Spy.guests, hm, hp]

theorem guests_begin {x : GuestCall} (hm : A.move n v = .begin x) :
    A.guests prog (n + 1) cs v ps = A.guests prog n (cs ++ [some x]) v (ps ++ [prog x]) := by
  simp only [Spy.guests, hm]

theorem guests_put {x : Bytes} {t : DataType} {b : Bytes} {k : (Eff.put x t b).Resp → Prog Res} (r : Except IoErr Unit)
    (hm : A.move n v = .step j) (hp : ps[j]? = some (.op (.put x t b) k)) (ha : A.answer v (.put x t b) = r) :
    A.guests prog (n + 1) cs v ps = A.guests prog n cs (v ++ [.request j ⟨.put x t b, r⟩]) (ps.set j (k r)) := by
  subst ha
  rw [guests_step A prog hm hp]
  exact PMF.pure_bind _ _

theorem guests_get {x : Bytes} {t : DataType} {k : (Eff.get x t).Resp → Prog Res} (r : Except IoErr Bytes)
    (hm : A.move n v = .step j) (hp : ps[j]? = some (.op (.get x t) k)) (ha : A.answer v (.get x t) = r) :
    A.guests prog (n + 1) cs v ps = A.guests prog n cs (v ++ [.request j ⟨.get x t, r⟩]) (ps.set j (k r)) := by
  subst ha
  rw [guests_step A prog hm hp]
  exact PMF.pure_bind _ _

theorem guests_result {r : Res} (hm : A.move n v = .step j) (hp : ps[j]? = some (.ret r)) :
    A.guests prog (n + 1) cs v ps = A.guests prog n cs (v ++ [.result j (.ok (withheld cs v j r))]) (ps.set j (.ret r)) := by
  rw [guests_step A prog hm hp]
  exact PMF.pure_bind _ _

/-- Whatever is drawn, the game ends the same way. -/
theorem guests_sure {l : Nat} {f : BytesN l → Prog Res} {b : Bool} (hm : A.move n v = .step j)
    (hp : ps[j]? = some ((randBytes l).bind f)) (h : ∀ x, A.guests prog (n + 1) cs v (ps.set j (f x)) = PMF.pure b) :
    A.guests prog (n + 1) cs v ps = PMF.pure b := by
  rw [guests_step A prog hm hp]
  refine (PMF.bind_bind (unif l) (fun x => settle (f x)) _).trans ?_
  have hj : j < ps.length := by
    by_contra hj
    rw [List.getElem?_eq_none (by omega)] at hp
    exact nomatch hp
  have : ∀ x, (settle (f x)).bind (fun q =>
      match nextStep q with
      | .inl o => A.guests prog n cs (v ++ [.result j (o.map (withheld cs v j))]) (ps.set j q)
      | .inr ⟨e, k⟩ => A.guests prog n cs (v ++ [.request j ⟨e, A.answer v e⟩]) (ps.set j (k (A.answer v e)))) = PMF.pure b := by
    intro x
    have hx := h x
    rw [guests_step A prog hm (List.getElem?_set_self hj)] at hx
    simp only [List.set_set] at hx
    exact hx
  rw [funext this, PMF.bind_const]

end

/-- A user without groups. -/
def loner (g : GoString) : Except Err Identity := .ok ⟨g, scopeAll, []⟩

/-- An access record that gives access to a user; made up. -/
def recordOf (oid : Oid) (g : GoString) : SealedAccess :=
  ⟨oid, some (madeUp (.ofBytes (some oid.1)) (⟨some [g], some (kwpBox hollowPrims noKey.1 noKey.1)⟩ : Access).toJ).2,
    some (madeUp (.ofBytes (some oid.1)) (⟨some [g], some (kwpBox hollowPrims noKey.1 noKey.1)⟩ : Access).toJ).1⟩

/-- `A` encrypts an object. -/
def secretCall : GuestCall :=
  (loner [65], ⟨(.encrypt [] ⟨some [0], none⟩ [], .encrypt [] ⟨some [1], none⟩ []), rfl, rfl, rfl, rfl⟩)

/-- Somebody decrypts an object. -/
def readCall (g : GoString) (oid : Oid) : GuestCall := (loner g, ⟨(.decrypt [] oid, .decrypt [] oid), rfl⟩)

/-- The adversary has user `g` decrypt what `A` encrypts, with an access record that it made up. -/
def guestSpy (g : GoString) : Spy GuestCall Res where
  answer v e := match v, e with
    | [.request _ ⟨.put x _ _, _⟩], .get _ _ => .ok (recordOf (oidOf x) g).toJ.render
    | [.request _ ⟨.put _ _ data, _⟩, _], .get _ _ => .ok data
    | _, e => (Store.exec (fun _ _ => none) (fun _ => none) ⟨0, 0⟩ e).1
  move
    | 5, _ => .begin secretCall
    | 4, _ => .step 0
    | 3, [.request _ ⟨.put x _ _, _⟩] => .begin (readCall g (oidOf x))
    | _, _ => .step 1
  guess v := match v with
    | [_, _, _, .result _ (.ok (.object o))] => o.plaintext == some [1]
    | _ => false

theorem unseal_recordOf (aek : Bytes) (oid : Oid) {g : GoString} (hg : sanitize g = g) : (recordOf oid g).unseal hollowPrims ⟨aek⟩ =
    .ok ⟨some [g], some (kwpBox hollowPrims noKey.1 noKey.1)⟩ :=
  decrypt_madeUp aek Access.ofJ (.ofBytes (some oid.1)) _
    (by rw [Access.ofJ_toJ]; simp only [Option.map_some, sanList, List.map_cons, List.map_nil, hg]; rfl)

theorem unseal_stored (kek : Bytes) (oid : Oid) (k : BytesN 32) (n : BytesN 12) (p : NBytes) :
    (⟨some (gcmBox hollowPrims k.1 n.1 (objectAad oid none).render (J.ofBytes p).render), none, oid⟩ : SealedObject).unseal hollowPrims
      (some (kwpBox hollowPrims noKey.1 noKey.1)) ⟨kek⟩ = .ok ⟨p, none⟩ := by
  have hk : kwpUnwrap hollowPrims kek (kwpBox hollowPrims noKey.1 noKey.1) = .ok noKey.1 := kwpUnwrap_box hollowLaws kek noKey.1 noKey.2
  have hg : gcmDecrypt hollowPrims (gcmBox hollowPrims k.1 n.1 (objectAad oid none).render (J.ofBytes p).render)
      (objectAad oid none).render noKey.1 = .ok (J.ofBytes p).render :=
    gcmDecrypt_box hollowLaws noKey.1 (objectAad oid none).render (J.ofBytes p).render n noKey.2
  rw [SealedObject.unseal, Cryptor.decrypt]
  simp only [NBytes.bytes, Option.getD_some, hk, hg, hollowLaws.unmarshal_render, Option.bind_some, san_ofBytes, toBytes_ofBytes]

theorem guest_end (g : GoString) (hg : g = [65] ∨ g = [66]) (right shown : Bool) (kek aek : BytesN 32)
    (hs : ∀ (oid : Oid) data p a a', p = some [0] ∨ p = some [1] →
      withheld [some secretCall, some (readCall g oid)] [.request 0 ⟨.put oid.1 dtObject data, .ok ()⟩, .request 1 a, .request 1 a'] 1
        (.object ⟨p, none⟩) = if shown then .object ⟨p, none⟩ else .unit) :
    (guestSpy g).guests (guestProg hollowPrims toyD1 right kek aek) 6 [] [] [] = PMF.pure (shown && right) := by
  rw [guests_begin _ _ (rfl : (guestSpy g).move 5 [] = .begin secretCall)]
  have hp : guestProg hollowPrims toyD1 right kek aek secretCall =
      (((toyD1.withKek kek).withAek aek (loner [65])).encrypt hollowPrims [] ⟨some [bif right then 1 else 0], none⟩ []).bind fun o => .ret (.oid o) := by
    cases right <;> rfl
  rw [hp, encrypt_draws hollowLaws (i := ⟨[65], scopeAll, []⟩) rfl]
  simp only [Prog.bind_assoc]
  refine guests_sure _ _ (rfl : (guestSpy g).move 4 [] = .step 0) rfl fun b => ?_
  refine guests_sure _ _ (rfl : (guestSpy g).move 4 [] = .step 0) rfl fun k1 => ?_
  refine guests_sure _ _ (rfl : (guestSpy g).move 4 [] = .step 0) rfl fun n1 => ?_
  refine guests_sure _ _ (rfl : (guestSpy g).move 4 [] = .step 0) rfl fun k2 => ?_
  refine guests_sure _ _ (rfl : (guestSpy g).move 4 [] = .step 0) rfl fun n2 => ?_
  generalize recordFor hollowPrims _ _ _ _ k2 n2 = sa
  have hu := unseal_stored kek.1 (mkV4 b) k1 n1 (some [bif right then 1 else 0])
  have hoid : (⟨some (gcmBox hollowPrims k1.1 n1.1 (objectAad (mkV4 b) none).render (J.ofBytes (some [bif right then 1 else 0])).render),
    none, mkV4 b⟩ : SealedObject).oid = mkV4 b := rfl
  generalize (⟨some (gcmBox hollowPrims k1.1 n1.1 (objectAad (mkV4 b) none).render (J.ofBytes (some [bif right then 1 else 0])).render),
    none, mkV4 b⟩ : SealedObject) = so at hu hoid ⊢
  simp only [List.nil_append, List.set_cons_zero]
  rw [guests_put _ _ (.ok ()) (rfl : (guestSpy g).move 4 [] = .step 0) rfl rfl,
    guests_begin _ _ (rfl : (guestSpy g).move 3 _ = .begin (readCall g (oidOf so.oid.1)))]
  rw [oidOf_eq]
  obtain ⟨k, hk, hk'⟩ := guard_get hollowLaws (t := []) (d := (toyD1.withKek kek).withAek aek (loner g)) (i := ⟨g, scopeAll, []⟩)
    (scope := scopeDecrypt) (sa := recordOf so.oid g) (a := ⟨some [g], some (kwpBox hollowPrims noKey.1 noKey.1)⟩)
    (by rcases hg with rfl | rfl <;> rfl)
    (by
      have hsan : sanitize g = g := by rcases hg with rfl | rfl <;> decide
      simp only [D1.authorizeAccess, D1.withAek, unseal_recordOf aek.1 so.oid hsan]
      rcases hg with rfl | rfl <;> rfl) fun a => (getSealedObject hollowPrims so.oid).bind fun so =>
        (Prog.ofExcept (so.unseal hollowPrims a.wrappedDEK (toyD1.withKek kek).objectCryptor)).bind fun o => .ret (Res.object o)
  obtain ⟨k₂, ho, ho'⟩ := object_get hollowLaws so fun so =>
    (Prog.ofExcept (so.unseal hollowPrims (some (kwpBox hollowPrims noKey.1 noKey.1)) (toyD1.withKek kek).objectCryptor)).bind
      fun o => .ret (Res.object o)
  have hp : guestProg hollowPrims toyD1 right kek aek (readCall g so.oid) = .op (.get so.oid.1 dtAccess) k := by
    have : guestProg hollowPrims toyD1 right kek aek (readCall g so.oid) =
        callProg hollowPrims ((toyD1.withKek kek).withAek aek (loner g)) (.decrypt [] so.oid) := by cases right <;> rfl
    rw [this, callProg, decrypt_eq]
    simp only [Prog.bind_assoc]
    exact hk
  have hu : so.unseal hollowPrims (some (kwpBox hollowPrims noKey.1 noKey.1)) (toyD1.withKek kek).objectCryptor =
    .ok ⟨some [bif right then 1 else 0], none⟩ := hu
  rw [hu] at ho'
  have ho' : k₂ (.ok so.toJ.render) = .ret (.object ⟨some [bif right then 1 else 0], none⟩) := ho'
  have hk' : k (.ok (recordOf so.oid g).toJ.render) = .op (.get so.oid.1 dtObject) k₂ := hk'.trans ho
  have hans : ∀ i ty data r x' t', (guestSpy g).answer [.request i ⟨.put so.oid.1 ty data, r⟩] (.get x' t') =
      .ok (recordOf so.oid g).toJ.render := fun i ty data r x' t' =>
    congrArg (fun o => Except.ok (recordOf o g).toJ.render) (oidOf_eq so.oid)
  rw [List.nil_append, hp]
  refine (guests_get _ _ (.ok (recordOf so.oid g).toJ.render) (rfl : (guestSpy g).move 2 _ = .step 1) rfl (hans ..)).trans ?_
  rw [hk']
  refine (guests_get _ _ (.ok so.toJ.render) (rfl : (guestSpy g).move 1 _ = .step 1) rfl rfl).trans ?_
  rw [ho']
  refine (guests_result _ _ (rfl : (guestSpy g).move 0 _ = .step 1) rfl).trans ?_
  rw [Spy.guests]
  have := hs so.oid so.toJ.render (some [bif right then 1 else 0]) ⟨.get so.oid.1 dtAccess, .ok (recordOf so.oid g).toJ.render⟩
    ⟨.get so.oid.1 dtObject, .ok so.toJ.render⟩ (by cases right <;> simp)
  simp only [List.nil_append, List.singleton_append, List.cons_append] at this ⊢
  rw [this]
  cases shown <;> cases right <;> rfl

theorem proposed_01 {cs : List (Option GuestCall)} {p : NBytes} (hp : p = some [0] ∨ p = some [1]) : Proposed (some secretCall :: cs) p :=
  ⟨secretCall, .head _, (some [0], some [1]), .head _, by simp, hp⟩

/-- C107: what `B` reads is shown, and gives the side away. -/
theorem C107_case : gap (guestGame hollowPrims toyD1 false (guestSpy [66]) 6) (guestGame hollowPrims toyD1 true (guestSpy [66]) 6) = 1 := by
  refine gap_sure (fun right => guestGame hollowPrims toyD1 right (guestSpy [66]) 6) fun right => ?_
  simp only [guestGame]
  refine Eq.trans (congrArg (PMF.bind _) (funext fun kek => ?_)) (PMF.bind_const _ _)
  refine Eq.trans (congrArg (PMF.bind _) (funext fun aek => ?_)) (PMF.bind_const _ _)
  refine guest_end [66] (.inr rfl) right true kek aek fun oid data p a a' hp => ?_
  rw [if_pos rfl]
  refine if_neg fun h => ?_
  obtain ⟨f, ⟨rfl, i, hi, hf, -⟩, j, x, hx, hb⟩ := h.2 [] oid rfl
  cases hi
  obtain hf : f.2 = [66] := by simpa [Identity.getIDs] using hf
  match j, hx with
  | 0, hx =>
    obtain rfl : guestCall false secretCall = x := by simpa using hx
    obtain ⟨⟨i, g, hi, hg, hs⟩, -⟩ := hb
    cases hi
    rw [hf] at hs
    rcases hg with hg | rfl
    · exact nomatch hg
    · exact absurd hs (by decide)
  | 1, hx =>
    obtain rfl : guestCall false (readCall [66] f.1) = x := by simpa using hx
    exact hb
  | j + 2, hx => exact nomatch hx

/-- C107: what `A` reads is withheld. -/
theorem C107_withheld (right : Bool) : guestGame hollowPrims toyD1 right (guestSpy [65]) 6 = PMF.pure false := by
  simp only [guestGame]
  refine Eq.trans (congrArg (PMF.bind _) (funext fun kek => ?_)) (PMF.bind_const _ _)
  refine Eq.trans (congrArg (PMF.bind _) (funext fun aek => ?_)) (PMF.bind_const _ _)
  refine guest_end [65] (.inl rfl) right false kek aek fun oid data p a a' hp => ?_
  rw [if_neg Bool.false_ne_true]
  refine if_pos ⟨proposed_01 hp, fun t o ho => ?_⟩
  cases ho
  refine ⟨(oid, [65]), ⟨rfl, ⟨[65], scopeAll, []⟩, rfl, by simp [Identity.getIDs], (by decide : Scope.contains scopeAll scopeDecrypt = true)⟩, 0, guestCall false secretCall, rfl, ?_, dtObject, data, .ok (), .head _⟩
  exact ⟨⟨[65], scopeAll, []⟩, [65], rfl, .inr rfl, (by decide : ([65] : GoString) = sanitize [65])⟩

end D1
