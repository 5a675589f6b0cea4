import Verif.Props.Authentic
import Verif.Props.Identifiers
import Verif.Props.Outsiders
/-!
# C112: nothing can be planted in the index

As in C98 to C103 the adversary is the IO Provider and the clock, decides which calls of the index are made and how their steps
are interleaved, and sees all requests and all results.  It does not know the index key.  It wins if a `Search` returns an
identifier that was not added for its keyword, or if a `Delete` changes anything stored although the identifier was not added for
the keyword.
-/
namespace D1
open Spec Prog

/-! ## Specification -/

/-- A keyword, and an identifier that was added for it. -/
abbrev Entry : Type := GoString × GoString

/-- `Add` adds its identifier as soon as it sends a node to be put.  (What is stored of an identifier is its sanitized text, C36.)
`Search` should return, and `Delete` act on, only what was added. -/
def entryTerms : Terms IxCall IxRes Entry where
  brings
    | .add _ kw id, f, H => f = (kw, sanitize id) ∧ ∃ label d, H (.inr (.put label dtNode d))
    | _, _, _ => False
  needs
    | .search _ kw, .inl (.ids l), D => ∃ id ∈ l, D = fun f => f = (kw, id)
    | .delete _ kw id, .inr e, D => changing e = true ∧ D = fun f => f = (kw, id)
    | _, _, _ => False

/-! ## The game as questions for keys -/

section
variable {X R : Type}

/-- Which results and requests make the adversary win. -/
abbrev Wins (X R : Type) : Type := List (Option X) → List (Sight R) → Nat → R ⊕ Eff → Prop

open Classical in
/-- The game, in which keys are asked for. -/
noncomputable def Spy.askTrial (A : Spy X R) (W : Wins X R) (q : List (Option X) → X → Bytes) (body : Bytes → Bytes → X → Prog R) :
    Nat → List (Option X) → List (Sight R) → List (Prog R) → OAdv (Bytes × Bytes) fun _ => Bytes
  | 0, _, _, _ => .done false
  | n + 1, cs, v, ps =>
    match A.move n v with
    | .stop => .done false
    | .begin x => .ask (labelLabel, q cs x) fun k1 => .ask (labelId, q cs x) fun k2 =>
        A.askTrial W q body n (cs ++ [some x]) v (ps ++ [body k1 k2 x])
    | .other p => A.askTrial W q body n (cs ++ [none]) v (ps ++ [p])
    | .step j =>
      match ps[j]? with
      | none => A.askTrial W q body n cs v ps
      | some p => tosses p fun p' =>
        match nextStep p' with
        | .inl o => if ∃ r, o = .ok r ∧ W cs v j (.inl r) then .done true
          else A.askTrial W q body n cs (v ++ [.result j o]) (ps.set j p')
        | .inr ⟨e, k⟩ => if W cs v j (.inr e) then .done true
          else A.askTrial W q body n cs (v ++ [.request j ⟨e, A.answer v e⟩]) (ps.set j (k (A.answer v e)))

theorem play_askTrial {F : Type} (oracle : Bytes × Bytes → Bytes) (kw : X → Bytes) (body : Bytes → Bytes → X → Prog R)
    (prog : X → Prog R) (hp : ∀ x, prog x = body (oracle (labelLabel, kw x)) (oracle (labelId, kw x)) x) (t : Terms X R F) (A : Spy X R) :
    ∀ (n : Nat) (cs : List (Option X)) (v : List (Sight R)) (ps : List (Prog R)),
      (A.askTrial t.Unfounded (fun _ => kw) body n cs v ps).play (fun q _ => PMF.pure (oracle q, ())) () = A.trial prog t n cs v ps := by
  intro n
  induction n with
  | zero => intros; rfl
  | succ n ih =>
    intro cs v ps
    simp only [Spy.askTrial, Spy.trial]
    cases A.move n v with
    | stop => rfl
    | begin x =>
      simp only [OAdv.play, PMF.pure_bind]
      rw [hp]
      exact ih _ _ _
    | other p => exact ih _ _ _
    | step j =>
      dsimp only
      cases ps[j]? with
      | none => exact ih _ _ _
      | some p =>
        refine play_tosses _ _ _ _ (fun p' => ?_) _
        cases nextStep p' with
        | inl o =>
          dsimp only
          split
          · rfl
          · exact ih _ _ _
        | inr x =>
          dsimp only
          split
          · rfl
          · exact ih _ _ _

end

/-! ## Numbers in place of keywords -/

/-- A keyword is the number of the first call about it. -/
def kwPlace (cs : List (Option IxCall)) (kw : GoString) : Nat := (cs.map (·.map (·.keyword))).idxOf (some kw)

theorem kwPlace_le (cs : List (Option IxCall)) (kw : GoString) : kwPlace cs kw ≤ cs.length := by
  have := List.idxOf_le_length (l := cs.map (·.map (·.keyword))) (a := some kw)
  simpa [kwPlace] using this

theorem kwPlace_mem {cs : List (Option IxCall)} {x : IxCall} {j : Nat} (h : cs[j]? = some (some x)) :
    some x.keyword ∈ cs.map (·.map (·.keyword)) :=
  List.mem_map.mpr ⟨some x, List.mem_of_getElem? h, rfl⟩

theorem kwPlace_lt {cs : List (Option IxCall)} {x : IxCall} {j : Nat} (h : cs[j]? = some (some x)) : kwPlace cs x.keyword < cs.length := by
  simpa [kwPlace] using List.idxOf_lt_length_of_mem (kwPlace_mem h)

theorem kwPlace_old {cs : List (Option IxCall)} {x : IxCall} {j : Nat} (h : cs[j]? = some (some x)) (c : Option IxCall) :
    kwPlace (cs ++ [c]) x.keyword = kwPlace cs x.keyword := by
  rw [kwPlace, List.map_append, List.idxOf_append_of_mem (kwPlace_mem h)]
  rfl

theorem kwPlace_new (cs : List (Option IxCall)) (x : IxCall) : kwPlace (cs ++ [some x]) x.keyword = kwPlace cs x.keyword := by
  by_cases hm : some x.keyword ∈ cs.map (·.map (·.keyword))
  · rw [kwPlace, List.map_append, List.idxOf_append_of_mem hm]; rfl
  · rw [kwPlace, List.map_append, List.idxOf_append_of_notMem hm, kwPlace, List.idxOf_eq_length hm]
    simp

theorem kwPlace_inj {cs : List (Option IxCall)} {x y : IxCall} {j : Nat} (h : cs[j]? = some (some x))
    (e : kwPlace cs x.keyword = kwPlace cs y.keyword) : x.keyword = y.keyword :=
  Option.some.inj ((List.idxOf_inj (kwPlace_mem h)).mp e)

theorem play_numberedTrial {R : Type} (W : Wins IxCall R) (body : Bytes → Bytes → IxCall → Prog R) (A : Spy IxCall R) :
    ∀ (n : Nat) (cs : List (Option IxCall)) (v : List (Sight R)) (ps : List (Prog R)) (h : List (GoString × GoString))
      (T U : List ((Bytes × Bytes) × Bytes)), SameTables h T U →
      (∀ p ∈ h, some p.1 ∈ cs.map (·.map (·.keyword)) ∧ p.2 = numeral (kwPlace cs p.1)) →
      (A.askTrial W (fun _ x => x.keyword) body n cs v ps).play kdfRandom T =
        (A.askTrial W (fun cs x => numeral (kwPlace cs x.keyword)) body n cs v ps).play kdfRandom U := by
  intro n
  induction n with
  | zero => intros; rfl
  | succ n ih =>
    intro cs v ps h T U hs hh
    simp only [Spy.askTrial]
    have hgrow : ∀ (c : Option IxCall), ∀ p ∈ h, some p.1 ∈ (cs ++ [c]).map (·.map (·.keyword)) ∧ p.2 = numeral (kwPlace (cs ++ [c]) p.1) := by
      intro c p hp
      obtain ⟨h1, h2⟩ := hh p hp
      rw [List.map_append]
      refine ⟨List.mem_append_left _ h1, ?_⟩
      rw [kwPlace, List.map_append, List.idxOf_append_of_mem h1]
      exact h2
    cases A.move n v with
    | stop => rfl
    | begin x =>
      dsimp only
      have hp : Paired h x.keyword (numeral (kwPlace cs x.keyword)) = true := by
        refine List.all_eq_true.mpr fun p hp => ?_
        obtain ⟨h1, h2⟩ := hh p hp
        have : p.1 = x.keyword ↔ p.2 = numeral (kwPlace cs x.keyword) := by
          rw [h2]
          constructor
          · intro e; rw [e]
          · intro e
            exact Option.some.inj ((List.idxOf_inj h1).mp (numeral_inj e))
        simp [this]
      refine random_ask (hs.pair hp) (by simp) _ fun k1 T U hs => ?_
      refine random_ask hs (by simp) _ fun k2 T U hs => ?_
      refine ih _ _ _ _ _ _ hs fun p hp => ?_
      rcases List.mem_cons.mp hp with rfl | hp
      · exact ⟨by simp, by rw [kwPlace_new]⟩
      · exact hgrow _ p hp
    | other p => exact ih _ _ _ _ _ _ hs (hgrow none)
    | step j =>
      dsimp only
      cases ps[j]? with
      | none => exact ih _ _ _ _ _ _ hs hh
      | some p =>
        refine random_tosses _ (fun p' => ?_) _
        cases nextStep p' with
        | inl o =>
          dsimp only
          split
          · rfl
          · exact ih _ _ _ _ _ _ hs hh
        | inr x =>
          dsimp only
          split
          · rfl
          · exact ih _ _ _ _ _ _ hs hh

/-! ## One keyword at a time -/

/-- The adversary wins with a call about keyword number `m`. -/
def WinsAt {R : Type} (W : Wins IxCall R) (m : Nat) : Wins IxCall R := fun cs v j s =>
  W cs v j s ∧ ∃ x, cs[j]? = some (some x) ∧ kwPlace cs x.keyword = m

theorem chance_bind_sum {α : Type} (p : PMF α) (f : α → PMF Bool) (g : Nat → α → PMF Bool) (N : Nat)
    (h : ∀ a, chance (f a) ≤ ∑ m ∈ Finset.range N, chance (g m a)) :
    chance (p.bind f) ≤ ∑ m ∈ Finset.range N, chance (p.bind (g m)) := by
  have hfin : ∀ r : PMF Bool, r true ≠ ⊤ := fun r => ne_top_of_le_ne_top ENNReal.one_ne_top (r.coe_le_one _)
  have h' : ∀ a, f a true ≤ ∑ m ∈ Finset.range N, g m a true := by
    intro a
    have := h a
    simp only [chance] at this
    rw [← ENNReal.toReal_sum fun m _ => hfin _] at this
    exact (ENNReal.toReal_le_toReal (hfin _) (ENNReal.sum_ne_top.mpr fun m _ => hfin _)).mp this
  simp only [chance]
  rw [← ENNReal.toReal_sum fun m _ => hfin _]
  refine (ENNReal.toReal_le_toReal (hfin _) (ENNReal.sum_ne_top.mpr fun m _ => hfin _)).mpr ?_
  simp only [PMF.bind_apply]
  rw [← Summable.tsum_finsetSum fun m _ => ENNReal.summable]
  refine ENNReal.tsum_le_tsum fun a => ?_
  rw [← Finset.mul_sum]
  exact mul_le_mul_right (h' a) _

theorem chance_tosses {Q σ α : Type} {S : Q → Type} (oracle : (q : Q) → σ → PMF (S q × σ)) {K : Prog α → OAdv Q S}
    {K' : Nat → Prog α → OAdv Q S} {s : σ} {N : Nat}
    (hK : ∀ p, chance ((K p).play oracle s) ≤ ∑ m ∈ Finset.range N, chance ((K' m p).play oracle s)) (p : Prog α) :
    chance ((tosses p K).play oracle s) ≤ ∑ m ∈ Finset.range N, chance ((tosses p (K' m)).play oracle s) := by
  rw [play_tosses oracle s K (fun p => (K p).play oracle s) (fun _ => rfl)]
  simp only [fun m => play_tosses oracle s (K' m) (fun p => (K' m p).play oracle s) (fun _ => rfl) p]
  exact chance_bind_sum _ _ _ _ hK

/-- Whoever wins, wins with a call about one of the keywords. -/
theorem chance_keywords {R : Type} (W : Wins IxCall R) (hW : ∀ cs v j s, W cs v j s → ∃ x, cs[j]? = some (some x))
    (q : List (Option IxCall) → IxCall → Bytes) (body : Bytes → Bytes → IxCall → Prog R) (A : Spy IxCall R) (N : Nat) :
    ∀ (n : Nat) (cs : List (Option IxCall)) (v : List (Sight R)) (ps : List (Prog R)) (T : List ((Bytes × Bytes) × Bytes)), cs.length + n ≤ N →
      chance ((A.askTrial W q body n cs v ps).play kdfRandom T) ≤
        ∑ m ∈ Finset.range N, chance ((A.askTrial (WinsAt W m) q body n cs v ps).play kdfRandom T) := by
  intro n
  induction n with
  | zero =>
    intro cs v ps T _
    simp only [Spy.askTrial, OAdv.play, chance_pure_false]
    simp
  | succ n ih =>
    intro cs v ps T hN
    have hwin : ∀ (f : Nat → PMF Bool) m, m < N → f m = PMF.pure true → chance (PMF.pure true) ≤ ∑ m ∈ Finset.range N, chance (f m) := by
      intro f m hm hf
      have := Finset.single_le_sum (f := fun m => chance (f m)) (fun m _ => chance_nonneg _) (Finset.mem_range.mpr hm)
      simpa [hf] using this
    simp only [Spy.askTrial]
    cases A.move n v with
    | stop =>
      simp only [OAdv.play, chance_pure_false]
      simp
    | begin x =>
      simp only [OAdv.play]
      refine chance_bind_sum _ _ _ _ fun r => chance_bind_sum _ _ _ _ fun r' => ih _ _ _ _ (by simp; omega)
    | other p => exact ih _ _ _ _ (by simp; omega)
    | step j =>
      dsimp only
      cases ps[j]? with
      | none => exact ih _ _ _ _ (by omega)
      | some p =>
        refine chance_tosses _ (fun p' => ?_) _
        cases nextStep p' with
        | inl o =>
          dsimp only
          by_cases hw : ∃ r, o = .ok r ∧ W cs v j (.inl r)
          · obtain ⟨r, hr, hw'⟩ := id hw
            obtain ⟨x, hx⟩ := hW _ _ _ _ hw'
            rw [if_pos hw]
            refine hwin _ (kwPlace cs x.keyword) (by have := kwPlace_lt hx; omega) ?_
            rw [if_pos ⟨r, hr, hw', x, hx, rfl⟩]
            rfl
          · rw [if_neg hw]
            have hm : ∀ m, ¬∃ r, o = .ok r ∧ WinsAt W m cs v j (.inl r) := fun m ⟨r, hr, h, _⟩ => hw ⟨r, hr, h⟩
            simp only [if_neg (hm _)]
            exact ih _ _ _ _ (by omega)
        | inr x =>
          obtain ⟨e, k⟩ := x
          dsimp only
          by_cases hw : W cs v j (.inr e)
          · obtain ⟨x, hx⟩ := hW _ _ _ _ hw
            rw [if_pos hw]
            refine hwin _ (kwPlace cs x.keyword) (by have := kwPlace_lt hx; omega) ?_
            rw [if_pos ⟨hw, x, hx, rfl⟩]
            rfl
          · rw [if_neg hw]
            have hm : ∀ m, ¬WinsAt W m cs v j (.inr e) := fun m ⟨h, _⟩ => hw h
            simp only [if_neg (hm _)]
            exact ih _ _ _ _ (by omega)

/-! ## The game with boxes -/

section
variable {X S R : Type}

open Classical in
/-- The game with boxes; to begin a challenge, keys may be drawn. -/
noncomputable def Spy.drawTrial (A : Spy X R) (W : Wins X R) (start : List (Option X) → X → S → Draw (S × IProg R)) :
    Nat → S → List (Option X) → List (Sight R) → List (IProg R) → IAdv
  | 0, _, _, _, _ => .done false
  | n + 1, s, cs, v, ps =>
    match A.move n v with
    | .stop => .done false
    | .begin x => (start cs x s).tree fun r => A.drawTrial W start n r.1 (cs ++ [some x]) v (ps ++ [r.2])
    | .other p => A.drawTrial W start n s (cs ++ [none]) v (ps ++ [IProg.lift p])
    | .step j =>
      match ps[j]? with
      | none => A.drawTrial W start n s cs v ps
      | some p => p.tree fun q =>
        match q.next with
        | .inl o => if ∃ r, o = .ok r ∧ W cs v j (.inl r) then .done true
          else A.drawTrial W start n s cs (v ++ [.result j o]) (ps.set j q)
        | .inr ⟨e, k⟩ => if W cs v j (.inr e) then .done true
          else A.drawTrial W start n s cs (v ++ [.request j ⟨e, A.answer v e⟩]) (ps.set j (k (A.answer v e)))

theorem shut_draw {α : Type} (P : Prims) (kek : BytesN 32) {Q : α → Prop} {K : α → IAdv} {T : List (IRec (BytesN 32))}
    (hK : ∀ a, Q a → (K a).play (boxShut P kek) T = PMF.pure false) (d : Draw α) (h : d.All Q) :
    (d.tree K).play (boxShut P kek) T = PMF.pure false := by
  induction d with
  | done a => exact hK a h
  | toss n k ih => exact Eq.trans (congrArg (PMF.bind _) (funext fun x => ih x (h x))) (PMF.bind_const _ _)

/-- The adversary does not win if nothing is opened but what was made.  `own cs x` are the challenges with boxes, `cs'` those
among `cs`. -/
theorem play_drawShut {F : Type} {facts : Bytes → J → F → Prop} {t : Terms X R F} (P : Prims) (kek : BytesN 32) (A : Spy X R)
    {W : Wins X R} {start : List (Option X) → X → S → Draw (S × IProg R)} (own : List (Option X) → X → Prop)
    (I : List (Option X) → List (Option X) → Prop)
    (hW : ∀ cs cs' v j s, I cs cs' → W cs v j s → t.Unfounded cs' v j s)
    (hstart : ∀ cs x s, (start cs x s).All fun r =>
      (own cs x ∧ r.2.Keeps facts t x (fun _ => False) fun _ => False) ∨ (¬own cs x ∧ ∃ q, r.2 = IProg.lift q))
    (hI : ∀ cs cs' x, I cs cs' → own cs x → I (cs ++ [some x]) (cs' ++ [some x]))
    (hI' : ∀ cs cs' x, I cs cs' → ¬own cs x → I (cs ++ [some x]) (cs' ++ [none]))
    (hI'' : ∀ cs cs', I cs cs' → I (cs ++ [none]) (cs' ++ [none])) (n : Nat) :
    ∀ (s : S) (cs cs' : List (Option X)) (v : List (Sight R)) (ps : List (IProg R)) (T : List (IRec (BytesN 32))), I cs cs' →
      TrialInv facts t none cs' v ps T → (A.drawTrial W start n s cs v ps).play (boxShut P kek) T = PMF.pure false := by
  induction n with
  | zero => intros; rfl
  | succ n ih =>
    intro s cs cs' v ps T hcs h
    simp only [Spy.drawTrial]
    cases A.move n v with
    | stop => rfl
    | begin x =>
      refine shut_draw P kek (fun r hr => ?_) _ (hstart cs x s)
      rcases hr with ⟨ho, hk⟩ | ⟨ho, hl⟩
      · exact ih _ _ _ _ _ T (hI _ _ _ hcs ho) (h.begin (some x) r.2 hk)
      · exact ih _ _ _ _ _ T (hI' _ _ _ hcs ho) (h.begin none r.2 hl)
    | other p => exact ih _ _ _ _ _ T (hI'' _ _ hcs) (h.begin none (IProg.lift p) ⟨p, rfl⟩)
    | step j =>
      dsimp only
      cases hj : ps[j]? with
      | none => exact ih _ _ _ v ps T hcs h
      | some p =>
        have hjl := (List.getElem?_eq_some_iff.mp hj).1
        have hset : ∀ p q : IProg R, (ps.set j p).set j q = ps.set j q := fun p q => List.set_set ..
        have h' := h.start j
        rw [show ps = ps.set j p from by
          obtain ⟨hl, rfl⟩ := List.getElem?_eq_some_iff.mp hj
          exact (List.set_getElem_self hl).symm] at h'
        refine shut_tree P kek j hjl _ (fun q T hq h => ?_) p T h'
        have hj : (ps.set j q)[j]? = some q := by simp [hjl]
        cases hn : q.next with
        | inl o =>
          simp only
          rw [if_neg ?_]
          · refine ih _ _ _ _ _ T hcs ?_
            have := h.show (p' := q) (y := .inl o) hj (shown_result j o).1 (shown_result j o).2
            rw [hset] at this
            refine this ?_ ?_ id ?_
            · intro B H hB
              cases q <;> first | exact hq.elim | (cases hn; exact ⟨hB, by
                rw [IProg.Stays, IProg.plus_plus]; exact hB⟩) | cases hn
            · intro B H hB
              cases q <;> first | exact hq.elim | (cases hn; exact ⟨hB, by
                rw [IProg.Stays, IProg.plus_plus]; exact hB⟩) | cases hn
            · intro x L H hk
              cases q <;> first | exact hq.elim | exact hk | cases hn
          · rintro ⟨r, rfl, hw⟩
            obtain ⟨x, D, hx, hD, hno⟩ := hW _ _ _ _ _ hcs hw
            obtain rfl : q = .ret r := by
              cases q with
              | ret b => simp only [IProg.next, Sum.inl.injEq, Outcome.ok.injEq] at hn; rw [hn]
              | _ => simp [IProg.next] at hn
            obtain ⟨L, hL, hk⟩ := h.run j x _ hx hj
            obtain ⟨f, hf, hl⟩ := hk D hD
            exact hno ⟨f, hf, (hL f hl).vouched⟩
        | inr x =>
          obtain ⟨e, k⟩ := x
          obtain rfl : q = .op e k := by
            cases q with
            | op e' k' => simp only [IProg.next, Sum.inr.injEq, Sigma.mk.injEq] at hn; obtain ⟨rfl, hk⟩ := hn; rw [eq_of_heq hk]
            | _ => simp [IProg.next] at hn
          simp only
          rw [if_neg ?_]
          · refine ih _ _ _ _ _ T hcs ?_
            have := h.show (p' := k (A.answer v e)) (y := .inr e) hj (shown_request j e (A.answer v e)).1 (shown_request j e (A.answer v e)).2
            rw [hset] at this
            refine this ?_ ?_ (fun hl => lift_op hl _) ?_
            · intro B H hB
              cases e <;> first | exact hq.elim | exact ⟨hB.1, hB.2 _⟩
            · intro B H hB
              cases e <;> first | exact hq.elim | exact ⟨hB.1, hB.2 _⟩
            · intro x L H hk
              cases e <;> first | exact hq.elim | exact hk.2 _
          · intro hw
            obtain ⟨x, D, hx, hD, hno⟩ := hW _ _ _ _ _ hcs hw
            obtain ⟨L, hL, hk⟩ := h.run j x _ hx hj
            have hm : t.Met x (.inr e) L := by cases e <;> first | exact hq.elim | exact hk.1
            obtain ⟨f, hf, hl⟩ := hm D hD
            exact hno ⟨f, hf, (hL f hl).vouched⟩

/-- Whoever wins only by opening what was not made attacks wrapped keys or forges. -/
theorem shut_chance {P : Prims} (L : P.Laws) (τ : IAdv) (h : ∀ kek, τ.play (boxShut P kek) [] = PMF.pure false) :
    chance ((unif 32).bind fun kek => τ.play (boxTrue P kek) []) ≤ wrapGap P (toUnwrap P τ []) + forgeGap P (forger P τ) := by
  have h1 : ((unif 32).bind fun kek => τ.play (boxTrue P kek) []) = (unif 32).bind fun kek => (toUnwrap P τ []).play (wrapReal P kek) () :=
    congrArg (PMF.bind _) (funext fun kek => (play_toUnwrap L kek τ []).symm)
  have h2 : (forger P τ).play (forgeOracle P false) [] = PMF.pure false := by
    simp only [forger, OAdv.play, play_toForge_shut L _ _ [] [] [] .nil, h]
    exact PMF.bind_const _ _
  rw [h1]
  simp only [wrapGap, forgeGap, play_swap L, h2, gap, chance_pure_false, sub_zero]
  generalize chance _ = a
  generalize chance _ = b
  have h4 := le_abs_self (a - b)
  have h5 := le_abs_self b
  linarith

end

/-! ## Calls keep to the terms -/

/-- The same terms for calls about one keyword. -/
def bareTerms : Terms IxCall IxRes GoString where
  brings
    | .add _ _ id, f, H => f = sanitize id ∧ ∃ label d, H (.inr (.put label dtNode d))
    | _, _, _ => False
  needs
    | .search _ _, .inl (.ids l), D => ∃ id ∈ l, D = fun f => f = id
    | .delete _ _ id, .inr e, D => changing e = true ∧ D = fun f => f = id
    | _, _, _ => False

/-- The identifier in a node. -/
def idOf (_ : Bytes) (m : J) (f : GoString) : Prop := ∃ n, Node.ofJ m.san = some n ∧ f = n.identifier

theorem node_san {m : J} {n : Node} (h : Node.ofJ m.san = some n) : sanitize n.identifier = n.identifier := by
  simp only [Node.ofJ, Option.bind_eq_bind, Option.bind_eq_some_iff, Option.pure_def, Option.some.injEq] at h
  obtain ⟨fs, h1, id, h2, c, -, rfl⟩ := h
  obtain ⟨fs, rfl⟩ := fields_san h1
  rw [field] at h2
  cases hl : fs.san.lookup nIdentifier with
  | none => rw [hl] at h2; cases h2; rfl
  | some v =>
    rw [hl] at h2
    obtain ⟨w, rfl⟩ := lookup_san _ fs v hl
    cases w with
    | str s => cases h2; exact sanitize_idem s
    | null => cases h2; rfl
    | _ => exact nomatch h2

theorem idOf_seal {aad : Bytes} {n : Node} {f : GoString} (h : idOf aad n.toJ f) : f = sanitize n.identifier := by
  obtain ⟨n', h1, rfl⟩ := h
  simp only [Node.ofJ, Node.toJ, J.san, JFields.san, J.fields, Option.bind_eq_bind, Option.bind_eq_some_iff, Option.pure_def,
    Option.some.injEq] at h1
  obtain ⟨fs, rfl, id, h2, c, -, rfl⟩ := h1
  have e1 : sanitize nIdentifier = nIdentifier := by decide
  have e2 : sanitize nNextCounter = nNextCounter := by decide
  have e3 : nNextCounter ≠ nIdentifier := by decide
  simp only [field, JFields.lookup, e1, e2, if_neg e3, if_true, J.toStr, Option.some.injEq] at h2
  exact h2.symm


section
variable {P : Prims} {k1 : Bytes} {x : IxCall}

/-- Reading asks for nothing that is needed. -/
theorem met_get (id : Bytes) (dt : DataType) (K : GoString → Prop) : bareTerms.Met x (.inr (.get id dt)) K := by
  intro D hD
  cases x <;> first | exact hD.elim | exact nomatch hD.1

theorem sends_getSealedNode {Q : Eff → Prop} (h : ∀ id dt, Q (.get id dt)) (label : Bytes) : (getSealedNode P label).Sends Q := by
  refine Prog.sends_bind ⟨h _ _, fun r => ?_⟩ fun b => ?_
  · cases r <;> trivial
  · cases (P.unmarshal b).bind SealedNode.ofJ <;> trivial

theorem sends_attempt {α β : Type} {Q : Eff → Prop} {p : Prog α} {f : Except Err α → Prog β} (hp : p.Sends Q) (hf : ∀ r, (f r).Sends Q) :
    (p.attempt f).Sends Q := by
  induction p with
  | op e c ih => exact ⟨hp.1, fun r => ih r (hp.2 r)⟩
  | ret a => exact hf _
  | err e => exact hf _
  | _ => trivial

theorem sends_ofPanic {α : Type} {Q : Eff → Prop} (o : Option α) : (Prog.ofPanic o).Sends Q := by
  cases o <;> trivial

theorem keeps_branch {K : GoString → Prop} {H : Outcome IxRes ⊕ Eff → Prop} {no : IProg IxRes} {yes : Node → IProg IxRes}
    (hn : no.Keeps idOf bareTerms x K H) (e : Err) : (branch no yes (.error e)).Keeps idOf bareTerms x K H := by
  cases e <;> first | exact hn | trivial

theorem keeps_nextI {K : GoString → Prop} {H : Outcome IxRes ⊕ Eff → Prop} (hH : Unended H) (c : Nat) {no : IProg IxRes} {yes : Node → IProg IxRes}
    (hn : ∀ K' H', (∀ f, K f → K' f) → Unended H' → no.Keeps idOf bareTerms x K' H')
    (hy : ∀ n K' H', (∀ f, K f → K' f) → K' n.identifier → sanitize n.identifier = n.identifier → Unended H' →
      (yes n).Keeps idOf bareTerms x K' H') :
    (nextI P k1 c no yes).Keeps idOf bareTerms x K H := by
  refine IProg.keeps_after _ (sends_ofPanic _) hH fun label H hH _ => ?_
  refine IProg.keeps_after _ (sends_attempt (sends_getSealedNode (fun _ _ => met_get _ _ _) label) fun _ => trivial) hH fun r H hH _ => ?_
  cases r with
  | error e => exact keeps_branch (hn _ _ (fun _ => id) hH) e
  | ok sn =>
    refine ⟨fun e => keeps_branch (hn _ _ (fun _ => id) hH) e, fun m => ?_⟩
    cases hd : Node.ofJ m.san with
    | none =>
      simp only [readAs, Option.bind_some, hd]
      exact keeps_branch (hn _ _ (fun _ => .inl) hH) _
    | some n =>
      simp only [readAs, Option.bind_some, hd]
      exact hy n _ _ (fun _ => .inl) (.inr ⟨n, hd, rfl⟩) (node_san hd) hH

theorem keeps_lastI {k : Nat → IProg IxRes} (hk : ∀ c K H, Unended H → (k c).Keeps idOf bareTerms x K H) :
    ∀ fuel c {K : GoString → Prop} {H : Outcome IxRes ⊕ Eff → Prop}, Unended H → (lastI P k1 fuel c k).Keeps idOf bareTerms x K H := by
  intro fuel
  induction fuel with
  | zero => intros; trivial
  | succ fuel ih => exact fun c K H hH => keeps_nextI hH c (fun _ _ _ hH => hk c _ _ hH) fun n _ _ _ _ _ hH => ih _ hH

theorem keeps_searchI {k : List GoString → IProg IxRes}
    (hk : ∀ l K H, (∀ id ∈ l, K id) → Unended H → (k l).Keeps idOf bareTerms x K H) :
    ∀ fuel c l {K : GoString → Prop} {H : Outcome IxRes ⊕ Eff → Prop}, (∀ id ∈ l, K id) → Unended H →
      (searchI P k1 fuel c l k).Keeps idOf bareTerms x K H := by
  intro fuel
  induction fuel with
  | zero => intros; trivial
  | succ fuel ih =>
    refine fun c l K H hl hH => keeps_nextI hH c (fun _ _ hK hH => hk l _ _ (fun id hid => hK _ (hl id hid)) hH) fun n K' _ hK hn _ hH => ?_
    refine ih _ _ (fun id hid => ?_) hH
    rcases List.mem_append.mp hid with hid | hid
    · exact hK _ (hl id hid)
    · rw [List.mem_singleton.mp hid]; exact hn

/-- A `Delete` changes something, having read its identifier. -/
theorem met_delete {t kw id : GoString} {K : GoString → Prop} (h : K id) (s : IxRes ⊕ Eff) : bareTerms.Met (.delete t kw id) s K := by
  intro D hD
  cases s with
  | inl r => exact hD.elim
  | inr e => exact ⟨id, by rw [hD.2], h⟩

theorem keeps_deleteI {t kw id : GoString} {k : IProg IxRes} (hk : ∀ K H, Unended H → k.Keeps idOf bareTerms (.delete t kw id) K H) :
    ∀ fuel c {K : GoString → Prop} {H : Outcome IxRes ⊕ Eff → Prop}, Unended H →
      (deleteI P k1 id fuel c k).Keeps idOf bareTerms (.delete t kw id) K H := by
  intro fuel
  induction fuel with
  | zero => intros; trivial
  | succ fuel ih =>
    refine fun c K H hH => keeps_nextI hH c (fun _ _ _ hH => hk _ _ hH) fun n K hH' hK hn _ hH => ?_
    by_cases he : n.identifier = id
    · rw [if_pos he]
      rw [he] at hn
      refine IProg.keeps_after _ (sends_ofPanic _) hH fun label H hH _ => ?_
      refine keeps_nextI hH _ (fun K' H hK hH => ?_) fun next K' H hK hnext hsan hH => ?_
      · exact IProg.keeps_after _ (Prog.sends_all (fun e => met_delete (hK _ hn) _) _) hH fun _ H hH _ => ih _ hH
      · refine fun r => ⟨fun f hf => .inl ?_, ?_⟩
        · rw [idOf_seal hf, hsan]; exact hnext
        · have hm := fun e => met_delete (t := t) (kw := kw) (hK _ hn) (.inr e)
          refine IProg.keeps_after _ (Prog.sends_all hm _) hH fun _ H hH _ => ?_
          refine IProg.keeps_after _ (Prog.sends_all hm _) hH fun _ H hH _ => ?_
          exact IProg.keeps_after _ (Prog.sends_all hm _) hH fun _ H hH _ => ih _ hH
    · rw [if_neg he]
      exact ih _ hH

/-- The Identity Provider stores nothing. -/
def OnlyReads (idp : IdProvider) : Prop := ∀ t, (idp t).Sends fun e => changing e = false

theorem sends_verify {i : SecureIndex} (hi : OnlyReads i.idProvider) (t : GoString) : (i.verifyAccess t).Sends fun e => changing e = false := by
  refine sends_attempt (hi t) fun r => ?_
  cases r with
  | error e => trivial
  | ok who =>
    dsimp only
    split <;> trivial

theorem sends_mono {α : Type} {Q Q' : Eff → Prop} (h : ∀ e, Q e → Q' e) {p : Prog α} (hp : p.Sends Q) : p.Sends Q' := by
  induction p with
  | op e c ih => exact ⟨h _ hp.1, fun r => ih r (hp.2 r)⟩
  | _ => trivial

theorem keeps_ixI {i : SecureIndex} (hi : OnlyReads i.idProvider) (fuel : Nat) (x : IxCall) :
    (ixI P k1 i fuel .ret x).Keeps idOf bareTerms x (fun _ => False) fun _ => False := by
  have h0 : Unended (fun _ : Outcome IxRes ⊕ Eff => False) := fun o h => h
  have hv : ∀ t, (i.verifyAccess t).Sends fun e => bareTerms.Met x (.inr e) fun _ => False := fun t =>
    sends_mono (fun e he D hD => by
      cases x <;> first | exact hD.elim | exact nomatch he.symm.trans hD.1) (sends_verify hi t)
  cases x with
  | add t kw id =>
    refine IProg.keeps_after _ (hv t) h0 fun _ H hH _ => keeps_lastI (fun c K H hH => ?_) fuel 0 hH
    have hm : ∀ (s : IxRes ⊕ Eff) (K : GoString → Prop), bareTerms.Met (.add t kw id) s K := fun s K D hD => by cases s <;> exact hD.elim
    refine IProg.keeps_after _ (sends_ofPanic _) hH fun label H hH _ => fun r => ⟨fun f hf => .inr ?_, ?_⟩
    · refine IProg.soon_sent (fun n => nofun) fun H' _ hp => ⟨idOf_seal hf, label, _, hp⟩
    · exact IProg.keeps_after _ (Prog.sends_all (fun e => hm _ _) _) hH fun _ H hH _ => hm _ _
  | search t kw =>
    refine IProg.keeps_after _ (hv t) h0 fun _ H hH _ => keeps_searchI (fun l K H hl hH => ?_) fuel 0 [] nofun hH
    rintro D ⟨id, hid, rfl⟩
    exact ⟨id, rfl, hl id hid⟩
  | delete t kw id =>
    refine IProg.keeps_after _ (hv t) h0 fun _ H hH _ => keeps_deleteI (fun K H hH => ?_) fuel 0 hH
    exact fun D hD => hD.elim

end

/-! ## The attacks -/

section
variable (P : Prims) (i : SecureIndex) (fuel : Nat)

/-- The attack on the key derivation. -/
noncomputable def plantKdf (A : Spy IxCall IxRes) (n : Nat) : OAdv (Bytes × Bytes) fun _ => Bytes :=
  A.askTrial entryTerms.Unfounded (fun _ x => x.keyword) (ixKeyed P i fuel) n [] [] []

/-- Begin a call; the key of keyword `m` is not drawn. -/
def plantStart (m : Nat) (cs : List (Option IxCall)) (x : IxCall) (s : List ((Bytes × Bytes) × Bytes)) :
    Draw (List ((Bytes × Bytes) × Bytes) × IProg IxRes) :=
  drawKey (labelLabel, numeral (kwPlace cs x.keyword)) s fun k1 s =>
    if kwPlace cs x.keyword = m then .done (s, ixI P k1 i fuel .ret x)
    else drawKey (labelId, numeral (kwPlace cs x.keyword)) s fun k2 s => .done (s, .lift (ixKeyed P i fuel k1 k2 x))

/-- The game about keyword `m`, with boxes. -/
noncomputable def plantTree (A : Spy IxCall IxRes) (n m : Nat) : IAdv :=
  A.drawTrial (WinsAt entryTerms.Unfounded m) (plantStart P i fuel m) n [] [] [] []

end

section
variable {P : Prims} (L : P.Laws) (i : SecureIndex) (fuel : Nat)

include L in
theorem play_plantTree (A : Spy IxCall IxRes) (W : Wins IxCall IxRes) (m : Nat) (kek : BytesN 32) :
    ∀ (n : Nat) (s : List ((Bytes × Bytes) × Bytes)) (cs : List (Option IxCall)) (v : List (Sight IxRes)) (ps : List (IProg IxRes))
      (T : List (IRec (BytesN 32))), s.lookup (labelId, numeral m) = none → TrueRecs P kek T →
      (A.drawTrial W (plantStart P i fuel m) n s cs v ps).play (boxTrue P kek) T =
        (A.askTrial W (fun cs x => numeral (kwPlace cs x.keyword)) (ixKeyed P i fuel)
          n cs v (ps.map (·.expand P kek))).play kdfRandom (s ++ [((labelId, numeral m), kek.1)]) := by
  intro n
  induction n with
  | zero => intros; rfl
  | succ n ih =>
    intro s cs v ps T hs hT
    simp only [Spy.drawTrial, Spy.askTrial]
    cases A.move n v with
    | stop => rfl
    | begin x =>
      dsimp only
      refine play_drawKey (fun e => absurd (show labelLabel = labelId from congrArg Prod.fst e) (by decide)) hs fun k1 s hs => ?_
      by_cases hp : kwPlace cs x.keyword = m
      · rw [if_pos hp]
        have hl : (s ++ [((labelId, numeral m), kek.1)]).lookup (labelId, numeral m) = some kek.1 := by simp [List.lookup_append, hs]
        simp only [Draw.tree, OAdv.play, kdfRandom, hp, hl, PMF.pure_bind]
        refine (ih _ _ _ _ _ hs hT).trans ?_
        have he : (ixI P k1 i fuel .ret x).expand P kek = ixKeyed P i fuel k1 kek.1 x :=
          (expand_ixI L kek i fuel _ x).trans (Prog.bind_ret _)
        rw [List.map_append, List.map_singleton, he]
      · rw [if_neg hp]
        refine play_drawKey (fun e => hp (numeral_inj (congrArg Prod.snd e))) hs fun k2 s hs => ?_
        simp only [Draw.tree]
        refine (ih _ _ _ _ _ hs hT).trans ?_
        rw [List.map_append, List.map_singleton, IProg.expand_lift]
    | other p =>
      refine (ih _ _ _ _ _ hs hT).trans ?_
      rw [List.map_append, List.map_singleton, IProg.expand_lift]
    | step j =>
      simp only [List.getElem?_map]
      cases ps[j]? with
      | none => exact ih _ _ _ _ _ hs hT
      | some p =>
        simp only [Option.map_some]
        rw [play_tosses _ _ _ _ fun _ => rfl]
        refine play_itree L kek _ _ (fun q T hq hT => ?_) p T hT
        rw [inext_expand P kek hq]
        cases hn : q.next with
        | inl o =>
          dsimp only
          split
          · rfl
          · exact (ih _ _ _ _ _ hs hT).trans (by rw [List.map_set])
        | inr x =>
          obtain ⟨e, k⟩ := x
          dsimp only
          split
          · rfl
          · exact (ih _ _ _ _ _ hs hT).trans (by rw [List.map_set])

/-- The calls about keyword `m`. -/
structure OnlyAt (m : Nat) (cs cs' : List (Option IxCall)) : Prop where
  len : cs'.length = cs.length
  old : ∀ (j : Nat) (x : IxCall), cs'[j]? = some (some x) → cs[j]? = some (some x) ∧ kwPlace cs x.keyword = m
  all : ∀ (j : Nat) (x : IxCall), cs[j]? = some (some x) → kwPlace cs x.keyword = m → cs'[j]? = some (some x)

theorem OnlyAt.snoc {m : Nat} {cs cs' : List (Option IxCall)} (h : OnlyAt m cs cs') (c c' : Option IxCall)
    (hc : ∀ x, c' = some x → c = some x ∧ kwPlace cs x.keyword = m) (hc' : ∀ x, c = some x → kwPlace cs x.keyword = m → c' = some x) :
    OnlyAt m (cs ++ [c]) (cs' ++ [c']) := by
  have hnew : ∀ x, c = some x → kwPlace (cs ++ [c]) x.keyword = kwPlace cs x.keyword := fun x hx => by rw [hx]; exact kwPlace_new cs x
  refine ⟨by simp [h.len], fun j x hj => ?_, fun j x hj hm => ?_⟩
  · by_cases hl : j < cs.length
    · rw [List.getElem?_append_left (h.len ▸ hl)] at hj
      obtain ⟨h1, h2⟩ := h.old j x hj
      exact ⟨by rw [List.getElem?_append_left hl]; exact h1, by rw [kwPlace_old h1]; exact h2⟩
    · have hjl := (List.getElem?_eq_some_iff.mp hj).1
      simp only [List.length_append, List.length_singleton, h.len] at hjl
      obtain rfl : j = cs.length := by omega
      rw [← h.len, List.getElem?_concat_length, Option.some.injEq] at hj
      obtain ⟨h1, h2⟩ := hc x hj
      exact ⟨by rw [List.getElem?_concat_length, h1], by rw [hnew x h1]; exact h2⟩
  · by_cases hl : j < cs.length
    · rw [List.getElem?_append_left hl] at hj
      rw [List.getElem?_append_left (h.len ▸ hl)]
      rw [kwPlace_old hj] at hm
      exact h.all j x hj hm
    · have hjl := (List.getElem?_eq_some_iff.mp hj).1
      simp only [List.length_append, List.length_singleton] at hjl
      obtain rfl : j = cs.length := by omega
      rw [List.getElem?_concat_length, Option.some.injEq] at hj
      rw [hnew x hj] at hm
      rw [← h.len, List.getElem?_concat_length, hc' x hj hm]

/-- Who wins with a call about keyword `m`, wins among the calls about it. -/
theorem OnlyAt.unfounded {m : Nat} {cs cs' : List (Option IxCall)} (h : OnlyAt m cs cs') {v : List (Sight IxRes)} {j : Nat} {s : IxRes ⊕ Eff}
    (hw : WinsAt entryTerms.Unfounded m cs v j s) : bareTerms.Unfounded cs' v j s := by
  obtain ⟨⟨x, D, hx, hD, hno⟩, y, hy, hm⟩ := hw
  obtain rfl : x = y := Option.some.inj (Option.some.inj (hx.symm.trans hy))
  have hv : ∀ id, D = (fun f => f = (x.keyword, id)) → ¬bareTerms.Vouched cs' v id := by
    rintro id rfl ⟨k, z, hz, hb⟩
    obtain ⟨hz1, hz2⟩ := h.old k z hz
    have hk := kwPlace_inj hz1 (hz2.trans hm.symm)
    refine hno ⟨(x.keyword, id), rfl, k, z, hz1, ?_⟩
    cases z with
    | add t kw id' =>
      obtain ⟨h1, h2⟩ := hb
      exact ⟨by rw [h1, ← hk]; rfl, h2⟩
    | _ => exact hb.elim
  cases x with
  | add t kw id => cases s <;> exact hD.elim
  | search t kw =>
    cases s with
    | inr e => exact hD.elim
    | inl r =>
      cases r with
      | unit => exact hD.elim
      | ids l =>
        obtain ⟨id, hid, hD⟩ := hD
        exact ⟨.search t kw, fun f => f = id, h.all j (.search t kw) hx hm, ⟨id, hid, rfl⟩, by rintro ⟨f, rfl, hf⟩; exact hv _ hD hf⟩
  | delete t kw id =>
    cases s with
    | inl r => exact hD.elim
    | inr e => exact ⟨.delete t kw id, fun f => f = id, h.all j (.delete t kw id) hx hm, ⟨hD.1, rfl⟩, by rintro ⟨f, rfl, hf⟩; exact hv _ hD.2 hf⟩

theorem shut_plantTree (hi : OnlyReads i.idProvider) (A : Spy IxCall IxRes) (n m : Nat) (kek : BytesN 32) :
    (plantTree P i fuel A n m).play (boxShut P kek) [] = PMF.pure false := by
  refine play_drawShut (facts := idOf) (t := bareTerms) P kek A (fun cs x => kwPlace cs x.keyword = m) (OnlyAt m)
    (fun cs cs' v j s h hw => h.unfounded hw) (fun cs x s => ?_) (fun cs cs' x h ho => ?_) (fun cs cs' x h ho => ?_) (fun cs cs' h => ?_)
    n [] [] [] [] [] [] ⟨rfl, nofun, nofun⟩ ⟨rfl, fun i s hs => by cases s <;> simp [Shown] at hs, by simp, by simp, by simp⟩
  · refine all_drawKey fun k1 s => ?_
    split
    · next h => exact .inl ⟨h, keeps_ixI hi fuel x⟩
    · next h => exact all_drawKey fun k2 s => .inr ⟨h, _, rfl⟩
  · exact h.snoc _ _ (by rintro y ⟨⟩; exact ⟨rfl, ho⟩) (by rintro y ⟨⟩ _; rfl)
  · exact h.snoc _ _ nofun (by rintro y ⟨⟩ hy; exact absurd hy ho)
  · exact h.snoc _ _ nofun nofun

end

/-- C112: whoever has a `Search` return what was not added for its keyword, or a `Delete` act on it, can tell derived keys from
random ones or, for one of the keywords, tells wrapped keys from other keys or forges AES-GCM ciphertexts. -/
theorem C112_planted {P : Prims} (L : P.Laws) (i : SecureIndex) (hi : OnlyReads i.idProvider) (fuel : Nat) (A : Spy IxCall IxRes) (n : Nat) :
    chance (trialGame (fun key => ixProg P (i.withKey key) fuel) entryTerms A n) ≤
      kdfGap P (plantKdf P i fuel A n) +
        ∑ m ∈ Finset.range n, (wrapGap P (toUnwrap P (plantTree P i fuel A n m) []) + forgeGap P (forger P (plantTree P i fuel A n m))) := by
  have hreal : trialGame (fun key => ixProg P (i.withKey key) fuel) entryTerms A n =
      (unif 32).bind fun key => (plantKdf P i fuel A n).play (kdfReal P key) () := by
    refine congrArg (PMF.bind _) (funext fun key => ?_)
    exact (play_askTrial (derived P key) (fun x : IxCall => x.keyword) (ixKeyed P i fuel) _ (fun x => ixProg_body L i fuel key x)
      entryTerms A n [] [] []).symm
  have hnum : (plantKdf P i fuel A n).play kdfRandom [] =
      (A.askTrial entryTerms.Unfounded (fun cs x => numeral (kwPlace cs x.keyword)) (ixKeyed P i fuel) n [] [] []).play kdfRandom [] :=
    play_numberedTrial _ _ A n [] [] [] [] [] [] ⟨nofun, nofun, fun _ _ _ => rfl, fun _ _ _ => rfl⟩ nofun
  have hsum := chance_keywords entryTerms.Unfounded (fun cs v j s ⟨x, _, hx, _⟩ => ⟨x, hx⟩) (fun cs x => numeral (kwPlace cs x.keyword))
    (ixKeyed P i fuel) A n n [] [] [] [] (by simp)
  have hone : ∀ m ∈ Finset.range n, chance ((A.askTrial (WinsAt entryTerms.Unfounded m) (fun cs x => numeral (kwPlace cs x.keyword))
      (ixKeyed P i fuel) n [] [] []).play kdfRandom []) ≤
        wrapGap P (toUnwrap P (plantTree P i fuel A n m) []) + forgeGap P (forger P (plantTree P i fuel A n m)) := by
    intro m _
    refine le_trans (le_of_eq (congrArg chance ?_)) (shut_chance L _ (shut_plantTree i fuel hi A n m))
    rw [play_early (labelId, numeral m) _ (T := []) rfl]
    exact congrArg (PMF.bind _) (funext fun kek => (play_plantTree L i fuel A _ m kek n [] [] [] [] [] rfl nofun).symm)
  rw [← hnum] at hsum
  have hsum := hsum.trans (Finset.sum_le_sum hone)
  rw [hreal]
  simp only [kdfGap, gap]
  have h1 := le_abs_self (chance ((unif 32).bind fun key => (plantKdf P i fuel A n).play (kdfReal P key) ()) -
    chance ((plantKdf P i fuel A n).play kdfRandom []))
  linarith

/-! ## The attacks ask few questions -/

theorem bursts_drawTrial {X R S : Type} (A : Spy X R) (W : Wins X R) {start : List (Option X) → X → S → Draw (S × IProg R)} {b : Nat}
    (hS : ∀ cs x s, (start cs x s).All fun a => a.2.Bursts b b) :
    ∀ (n : Nat) (s : S) (cs : List (Option X)) (v : List (Sight R)) (ps : List (IProg R)), (∀ p ∈ ps, p.Bursts b b) →
      (A.drawTrial W start n s cs v ps).Asks (b * n) := by
  intro n
  induction n with
  | zero => intros; trivial
  | succ n ih =>
    intro s cs v ps hps
    rw [Nat.mul_succ]
    have hadd : ∀ s cs (p : IProg R), p.Bursts b b → (A.drawTrial W start n s cs v (ps ++ [p])).Asks (b * n + b) :=
      fun s cs p hp => (ih s cs v _ fun q hq => (List.mem_append.mp hq).elim (hps q) fun h => List.mem_singleton.mp h ▸ hp).mono (by omega)
    simp only [Spy.drawTrial]
    cases A.move n v with
    | stop => trivial
    | begin x => exact asks_draw (fun a ha => hadd _ _ _ ha) _ (hS cs x s)
    | other p => exact hadd _ _ _ (IProg.bursts_lift (Nat.le_refl b) _)
    | step j =>
      dsimp only
      cases hj : ps[j]? with
      | none => exact (ih _ _ v ps hps).mono (by omega)
      | some p =>
        have hset : ∀ v (q : IProg R), q.Bursts b b → (A.drawTrial W start n s cs v (ps.set j q)).Asks (b * n) :=
          fun v q hq => ih _ _ _ _ fun x hx => (List.mem_or_eq_of_mem_set hx).elim (hps x) fun h => h ▸ hq
        refine IProg.bursts_tree (fun q hc hq => ?_) p (Nat.le_refl b) (hps p (List.mem_of_getElem? hj))
        cases hn : q.next with
        | inl o =>
          dsimp only
          split
          · trivial
          · exact hset _ _ hq
        | inr x =>
          obtain ⟨e, k⟩ := x
          have hk : ∀ r, (k r).Bursts b b := by
            cases q with
            | op e' k' =>
              cases hn
              cases e with
              | rand n => exact hc.elim
              | _ => exact hq
            | _ => cases hn
          dsimp only
          split
          · trivial
          · exact hset _ _ (hk _)

theorem asks_plantTree (P : Prims) (i : SecureIndex) (fuel : Nat) (A : Spy IxCall IxRes) (n m : Nat) :
    (plantTree P i fuel A n m).Asks (2 * n) := by
  refine bursts_drawTrial A _ (fun cs x s => ?_) n [] [] [] [] nofun
  refine all_drawKey fun k1 s => ?_
  split
  · exact bursts_ixI i fuel (k := .ret) (fun _ => trivial) _
  · exact all_drawKey fun k2 s => IProg.bursts_lift (Nat.le_refl 2) _

/-- C112: the attack on the key derivation asks twice per call. -/
theorem C112_keys (P : Prims) (i : SecureIndex) (fuel : Nat) (A : Spy IxCall IxRes) (n : Nat) : (plantKdf P i fuel A n).Asks (2 * n) := by
  suffices H : ∀ (n : Nat) (cs : List (Option IxCall)) (v : List (Sight IxRes)) (ps : List (Prog IxRes)),
      (A.askTrial entryTerms.Unfounded (fun _ x => x.keyword) (ixKeyed P i fuel) n cs v ps).Asks (2 * n) from H n [] [] []
  intro n
  induction n with
  | zero => intros; trivial
  | succ n ih =>
    intro cs v ps
    have ih' := fun cs v ps => (ih cs v ps).mono (show 2 * n ≤ 2 * (n + 1) by omega)
    simp only [Spy.askTrial]
    cases A.move n v with
    | stop => trivial
    | begin x => exact fun k1 k2 => ih _ _ _
    | other p => exact ih' _ _ _
    | step j =>
      dsimp only
      cases ps[j]? with
      | none => exact ih' _ _ _
      | some p =>
        refine asks_tosses (fun p => ?_) _
        cases nextStep p with
        | inl o => dsimp only; split <;> first | trivial | exact ih' _ _ _
        | inr x => obtain ⟨e, k⟩ := x; dsimp only; split <;> first | trivial | exact ih' _ _ _

/-- C112: the other attacks ask at most twice per move. -/
theorem C112_questions (P : Prims) (i : SecureIndex) (fuel : Nat) (A : Spy IxCall IxRes) (n m : Nat) :
    (toUnwrap P (plantTree P i fuel A n m) []).Asks (2 * n) ∧ (forger P (plantTree P i fuel A n m)).Asks (2 * n) :=
  ⟨asks_toUnwrap P _ _ (asks_plantTree P i fuel A n m), fun kek => asks_toForge P kek _ _ (asks_plantTree P i fuel A n m)⟩

/-! ## Providers that only read -/

theorem sends_ofExcept {α : Type} {Q : Eff → Prop} (r : Except Err α) : (Prog.ofExcept r).Sends Q := by
  cases r <;> trivial

/-- C112: the Identity Provider of the library only reads, so the theorem is about an index with it. -/
theorem C112_standalone (P : Prims) (s : Standalone) : OnlyReads (s.getIdentity P) := by
  intro t
  have hu : ∀ uid, (s.getUser P uid).Sends fun e => changing e = false := by
    refine fun uid => sends_bind (p := ioGet _ _ _) ⟨rfl, fun r => by cases r <;> trivial⟩ fun b => ?_
    cases (P.unmarshal b).bind SealedUser.ofJ with
    | none => trivial
    | some u => exact sends_ofExcept _
  have hg : ∀ gid, (s.getGroup P gid).Sends fun e => changing e = false := by
    refine fun gid => sends_bind (p := ioGet _ _ _) ⟨rfl, fun r => by cases r <;> trivial⟩ fun b => ?_
    cases (P.unmarshal b).bind SealedGroup.ofJ with
    | none => trivial
    | some u => exact sends_ofExcept _
  have hf : ∀ l, (s.fetchGroups P l).Sends fun e => changing e = false := by
    intro l
    induction l with
    | nil => trivial
    | cons g l ih => exact sends_bind (hg g) fun _ => sends_bind ih fun _ => trivial
  rw [Standalone.getIdentity]
  cases tokenFromString P t with
  | error e => trivial
  | ok st =>
    refine sends_attempt ⟨rfl, fun now => ?_⟩ fun r => ?_
    · show Sends _ (if st.expiryTime.before now then _ else _)
      split
      · trivial
      · exact sends_bind (sends_ofExcept _) fun _ => trivial
    · cases r with
      | error e => trivial
      | ok tok => exact sends_bind (hu _) fun u => sends_bind (hf _) fun _ => trivial

/-! ## Cases

With an AES-GCM that authenticates nothing the adversary below wins every time, so the right hand side of the theorem is at
least 1. -/

theorem toyIndex_reads : OnlyReads toyIndex.idProvider := by
  intro t
  simp only [toyIndex]
  split <;> trivial

/-- A node with identifier `a`, made up. -/
def hollowNode (label : Bytes) : SealedNode :=
  ⟨some (madeUp (.ofBytes (some label)) (⟨[97], 1⟩ : Node).toJ).2, some (madeUp (.ofBytes (some label)) (⟨[97], 1⟩ : Node).toJ).1⟩

/-- The adversary has a keyword searched for, and answers the first request with a node that it made up. -/
def nodeForger : Spy IxCall IxRes where
  answer v e :=
    match e with
    | .get label _ => if v.length = 0 then .ok (hollowNode label).toJ.render else .error .notFound
    | e => (Store.exec (fun _ _ => none) (fun _ => none) ⟨0, 0⟩ e).1
  move
    | 3, _ => .begin (.search [65] [107])
    | _, _ => .step 0
  guess _ := false

theorem C112_case : chance (trialGame (fun key => ixProg hollowPrims (toyIndex.withKey key) 5) entryTerms nodeForger 4) = 1 := by
  have h : ∀ key, nodeForger.trial (ixProg hollowPrims (toyIndex.withKey key) 5) entryTerms 4 [] [] [] = PMF.pure true := by
    intro key
    have hv : (toyIndex.withKey key).verifyAccess [65] = .ret () := rfl
    have hr : ∀ c, readNode hollowPrims (toyIndex.withKey key) [107] c (.ok (hollowNode (ixLabel hollowPrims (toyIndex.withKey key) [107] c)).toJ.render) =
        .ok ⟨sanitize [97], 1⟩ := by
      intro c
      simp only [readNode, hollowLaws.unmarshal_render, Option.bind_some, SealedNode.ofJ_toJ, SealedNode.unseal]
      exact decrypt_madeUp _ Node.ofJ _ _ (Node.ofJ_toJ _ (by decide))
    have hp : ∃ k k', ixProg hollowPrims (toyIndex.withKey key) 5 (.search [65] [107]) =
          .op (.get (ixLabel hollowPrims (toyIndex.withKey key) [107] 0) dtNode) k ∧
        k (.ok (hollowNode (ixLabel hollowPrims (toyIndex.withKey key) [107] 0)).toJ.render) =
          .op (.get (ixLabel hollowPrims (toyIndex.withKey key) [107] 1) dtNode) k' ∧
        k' (.error .notFound) = .ret (.ids [sanitize [97]]) := by
      rw [ixProg_eq hollowLaws key.2, IxCall.token, hv, Prog.ret_bind]
      simp only [ixBody, searchLoop, getNextNode_eq hollowLaws, Prog.bind, Prog.attempt]
      have hz : zeroNode.nextCounter = 0 := rfl
      apply Exists.intro
      apply Exists.intro
      refine ⟨rfl, ?_⟩
      simp only [hz, hr, Prog.ofExcept, Prog.attempt, Prog.bind]
      exact ⟨rfl, rfl⟩
    obtain ⟨k, k', hp, hk, hk'⟩ := hp
    have ha : k (nodeForger.answer [] (.get (ixLabel hollowPrims (toyIndex.withKey key) [107] 0) dtNode)) = .op _ k' := hk
    rw [solo_begin (x := .search [65] [107]) rfl, hp, solo_op rfl (by intro n h; exact nomatch h) (by intro D h; exact nomatch h), ha,
      solo_op rfl (by intro n h; exact nomatch h) (by intro D h; exact nomatch h)]
    refine (congrArg (fun p => nodeForger.trial _ entryTerms 1 _ _ [p]) hk').trans ?_
    exact solo_ret rfl ⟨_, List.mem_singleton.mpr rfl, rfl⟩ fun f H hf => hf
  simp only [trialGame, h, PMF.bind_const, chance_true]

/-- The theorem applied to this adversary. -/
theorem C112_case_bound : 1 ≤ kdfGap hollowPrims (plantKdf hollowPrims toyIndex 5 nodeForger 4) +
    ∑ m ∈ Finset.range 4, (wrapGap hollowPrims (toUnwrap hollowPrims (plantTree hollowPrims toyIndex 5 nodeForger 4 m) []) +
      forgeGap hollowPrims (forger hollowPrims (plantTree hollowPrims toyIndex 5 nodeForger 4 m))) :=
  C112_case ▸ C112_planted hollowLaws toyIndex toyIndex_reads 5 nodeForger 4

end D1
