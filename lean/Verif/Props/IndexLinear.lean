import Verif.Props.Concurrent
import Verif.Props.Linear
import Verif.Proofs.IndexOwn
/-!
# Concurrent calls on the secure index that do not conflict: C83

`Add`, `Search` and `Delete` calls run concurrently.  Two calls conflict if they are about the same keyword and one of them is a `Delete`.  If
conflicting calls are never in progress at the same time, the calls are linearizable: they have the results and the effect of a sequence
of calls of the specification, in an order that agrees with real time.
-/
namespace D1
open Spec Prog

def Spec.IxCall.isDelete : IxCall → Bool
  | .delete .. => true
  | _ => false

def Spec.IxCall.isAdd : IxCall → Bool
  | .add .. => true
  | _ => false

/-- The calls must not overlap.  `A`: calls of `Add` on the same keyword may overlap. -/
def IxConflict (A : Prop) (a b : IxCall) : Prop :=
  a.keyword = b.keyword ∧ (a.isDelete = true ∨ b.isDelete = true ∨ ¬ A ∧ a.isAdd = true ∧ b.isAdd = true)

/-- The Identity Provider ends, says of a token only what `who` allows (`none`: it rejects the token), and leaves index records alone. -/
def IxTells (i : SecureIndex) (who : GoString → Option Identity → Prop) : Prop :=
  ∀ token, AllEff (fun e => ∀ x, e.target ≠ some (x, dtNode)) (i.idProvider token) ∧
    AllOut (fun out => match out with
      | .ok y => who token (some y)
      | .err _ => who token none
      | _ => False) (i.idProvider token)

/-- One call of the specification; or an `Add` that was overtaken by another one (if `A`), without any effect. -/
def IxMove (A : Prop) (who : GoString → Option Identity → Prop) (c : IxCall) (x : Index) (o : Outcome IxRes) (x' : Index) : Prop :=
  ∃ r, who c.token r ∧ (o = toOutcome (ixStep sanitize x r c).1 ∧ x' = (ixStep sanitize x r c).2 ∨
    A ∧ c.isAdd = true ∧ (∃ y, r = some y ∧ scopeIn scopeIndex y.scopes) ∧ o = .err .nodeAlreadyExists ∧ x' = x)

/-- The index, a bound on its counters, and the calls that have begun to read. -/
structure IxGhost where
  x : Index
  a : Nat
  busy : Nat → Prop

/-- Nobody is deleting under this keyword. -/
def IxGhost.free (g : IxGhost) (calls : List IxCall) (kw : GoString) : Prop :=
  ∀ j c, g.busy j → calls[j]? = some c → c.isDelete = true → c.keyword ≠ kw

section
variable (P : Prims) (i : SecureIndex) (K : List GoString) (N : Nat) (env : Env) (calls : List IxCall) (A : Prop)
  (who : GoString → Option Identity → Prop) (t0 a0 limit : Nat)

/-- What the others leave alone. -/
def IxRely (j : Nat) (g : IxGhost) (w : World) (g' : IxGhost) (w' : World) : Prop :=
  (g'.busy j ↔ g.busy j) ∧ g.a ≤ g'.a ∧ (g.busy j → ∀ c, calls[j]? = some c →
    (c.isDelete = true → g'.x c.keyword = g.x c.keyword ∧ SameAt P i N c.keyword w.store w'.store) ∧
    (c.isDelete = false → Extends P i [c.keyword] N w.store w'.store ∧ (¬ A → c.isAdd = true → g'.x c.keyword = g.x c.keyword)))

def ixRules : LinRules IxGhost Index IxRes where
  env := env
  limit := limit
  inv g w := (∀ kw ∈ K, g.free calls kw → IxRel P i [kw] N w.store g.x g.a) ∧ g.a + t0 ≤ a0 + w.t
  rely := IxRely P i N calls A
  refl j g w := ⟨.rfl, Nat.le_refl _, fun _ c _ => ⟨fun _ => ⟨rfl, fun _ _ => rfl⟩, fun _ => ⟨fun _ _ _ _ _ h => h, fun _ _ => rfl⟩⟩⟩
  trans := by
    rintro j a x b y c z ⟨h1, h2, h3⟩ ⟨g1, g2, g3⟩
    refine ⟨g1.trans h1, Nat.le_trans h2 g2, fun hb d hd => ⟨fun hdel => ?_, fun hdel => ?_⟩⟩
    · obtain ⟨h4, h5⟩ := (h3 hb d hd).1 hdel
      obtain ⟨g4, g5⟩ := (g3 (h1.mpr hb) d hd).1 hdel
      exact ⟨g4.trans h4, fun n hn => (g5 n hn).trans (h5 n hn)⟩
    · obtain ⟨h4, h5⟩ := (h3 hb d hd).2 hdel
      obtain ⟨g4, g5⟩ := (g3 (h1.mpr hb) d hd).2 hdel
      exact ⟨fun kw hkw n hn x hx => g4 kw hkw n hn x (h4 kw hkw n hn x hx), fun hA had => (g5 hA had).trans (h5 hA had)⟩
  holds g j := g.busy j
  holds_iff h := h.1
  conflict a b := ∃ c d, calls[a]? = some c ∧ calls[b]? = some d ∧ IxConflict A c d
  abs := IxGhost.x
  lin j x o x' := ∃ c, calls[j]? = some c ∧ IxMove A who c x o x'

end

section
variable {P : Prims} (L : P.Laws) {i : SecureIndex} (hk : i.indexKey.length = 32) {K : List GoString} {N : Nat} {env : Env} {calls : List IxCall}
  {A : Prop} {who : GoString → Option Identity → Prop} {t0 a0 limit : Nat}

theorem IxRel.frame {kw : GoString} {st st' : Store} {x x' : Index} {a a' : Nat} (h : IxRel P i [kw] N st x a) (hs : SameAt P i N kw st st')
    (hx : x' kw = x kw) (haa : a ≤ a') (haN : a ≤ N) : IxRel P i [kw] N st' x' a' := by
  intro kw' hkw'
  obtain ⟨l, e, h1, h2, h3, h4, h5⟩ := h kw' hkw'
  rw [List.mem_singleton] at hkw'
  subst hkw'
  exact ⟨l, e, h1.congr fun c _ hc => hs c (by omega), h2.trans hx.symm, by omega, fun c hc hn => (hs c hc).trans (h4 c hc hn), h5⟩

/-- The state after a step of call `j`. -/
theorem ixInv_step {j : Nat} {c : IxCall} (hj : calls[j]? = some c) {g' g'' : IxGhost} {w' w'' : World}
    (hinv : (ixRules P i K N env calls A who t0 a0 limit).inv g' w') (haN : g'.a ≤ N)
    (hb : ∀ b, b ≠ j → (g''.busy b ↔ g'.busy b)) (haa : g'.a ≤ g''.a) (hse : SameElse P i K N c.keyword w'.store w''.store)
    (hx : ∀ kw, kw ≠ c.keyword → g''.x kw = g'.x kw)
    (hkw : c.keyword ∈ K → g''.free calls c.keyword → IxRel P i [c.keyword] N w''.store g''.x g''.a) (ht : g''.a + t0 ≤ a0 + w''.t) :
    (ixRules P i K N env calls A who t0 a0 limit).inv g'' w'' := by
  refine ⟨fun kw hkwK hfree => ?_, ht⟩
  by_cases hkc : kw = c.keyword
  · subst hkc; exact hkw hkwK hfree
  · refine (hinv.1 kw hkwK fun b d h1 h2 h3 => ?_).frame (fun n hn => hse kw hkwK hkc n hn) (hx kw hkc) haa haN
    by_cases hbj : b = j
    · subst hbj
      rw [hj] at h2
      cases h2
      exact fun h => hkc h.symm
    · exact hfree b d ((hb b hbj).mpr h1) h2 h3

/-- What the others see of a step of call `j`. -/
theorem ixRely_step (hK : ∀ c ∈ calls, c.keyword ∈ K) {j : Nat} {c : IxCall} (hj : calls[j]? = some c) {g' g'' : IxGhost} {w' w'' : World}
    (hcalm : (ixRules P i K N env calls A who t0 a0 limit).calm j g')
    (hb : ∀ b, b ≠ j → (g''.busy b ↔ g'.busy b)) (haa : g'.a ≤ g''.a) (hse : SameElse P i K N c.keyword w'.store w''.store)
    (hx : ∀ kw, kw ≠ c.keyword → g''.x kw = g'.x kw)
    (hc : c.isDelete = true ∨ Extends P i [c.keyword] N w'.store w''.store ∧ (g''.x c.keyword = g'.x c.keyword ∨ c.isAdd = true)) :
    ∀ b, b ≠ j → (ixRules P i K N env calls A who t0 a0 limit).rely b g' w' g'' w'' := by
  intro b hbj
  refine ⟨hb b hbj, haa, fun hbusy d hd => ?_⟩
  have hcf : ¬ IxConflict A d c := fun hcf => hcalm b hbj ⟨d, c, hd, hj, hcf⟩ hbusy
  have hdK := hK d (List.mem_of_getElem? hd)
  by_cases hkc : d.keyword = c.keyword
  · have hdd : ¬ d.isDelete = true := fun h => hcf ⟨hkc, .inl h⟩
    have hcd : ¬ c.isDelete = true := fun h => hcf ⟨hkc, .inr (.inl h)⟩
    obtain ⟨h1, h2⟩ := hc.resolve_left hcd
    refine ⟨fun h => absurd h hdd, fun _ => ?_⟩
    rw [hkc]
    refine ⟨h1, fun hA had => h2.resolve_right fun hca => hcf ⟨hkc, .inr (.inr ⟨hA, had, hca⟩)⟩⟩
  · have hs : SameAt P i N d.keyword w'.store w''.store := fun n hn => hse _ hdK hkc n hn
    refine ⟨fun _ => ⟨hx _ hkc, hs⟩, fun _ => ⟨fun kw hkw n hn x hxx => ?_, fun _ _ => hx _ hkc⟩⟩
    rw [List.mem_singleton] at hkw
    subst hkw
    rw [hs n hn]
    exact hxx

/-- The rules of one `Add` or `Search`. -/
abbrev oneRules (P : Prims) (i : SecureIndex) (K : List GoString) (N : Nat) (kw : GoString) : Rules (Index × Nat) Store :=
  addRulesG SureStep (SameElse P i K N kw) P i [kw] N fun _ _ => True

/-- A step of an `Add` or a `Search`. -/
theorem rg_step (hf : NoFault env) (hr : RandOk env) (hK : ∀ c ∈ calls, c.keyword ∈ K) {j : Nat} {c : IxCall} (hj : calls[j]? = some c)
    (hcd : c.isDelete = false) (hlim : a0 + limit ≤ N + t0) {y : Identity} (hwho : who c.token (some y)) (hy : scopeIn scopeIndex y.scopes)
    {m : Nat} {e : Eff} {k : e.Resp → Prog IxRes} {g' : IxGhost} {w' : World}
    (hinv : (ixRules P i K N env calls A who t0 a0 limit).inv g' w') (hcalm : (ixRules P i K N env calls A who t0 a0 limit).calm j g')
    (ht : w'.t < limit) (hm : ¬ A → c.isAdd = true → m = (g'.x c.keyword).length)
    (hrg : Rg (oneRules P i K N c.keyword) (addLinG (fun _ => False) m c) (.op e k) (g'.x, g'.a) w'.store)
    (ih : (k (w'.exec env e).1).outcome = none → Rg (oneRules P i K N c.keyword) (addLinG (fun _ => False) m c) (k (w'.exec env e).1) (g'.x, g'.a)
        (w'.exec env e).2.store → Lin (ixRules P i K N env calls A who t0 a0 limit) j (k (w'.exec env e).1) none
          ⟨g'.x, g'.a, fun b => g'.busy b ∨ b = j⟩ (w'.exec env e).2) :
    ∃ g'' d', (ixRules P i K N env calls A who t0 a0 limit).move j none g' d' g'' ∧
      (ixRules P i K N env calls A who t0 a0 limit).inv g'' (w'.exec env e).2 ∧
      (∀ b, b ≠ j → (ixRules P i K N env calls A who t0 a0 limit).rely b g' w' g'' (w'.exec env e).2) ∧
      Lin (ixRules P i K N env calls A who t0 a0 limit) j (k (w'.exec env e).1) d' g'' (w'.exec env e).2 := by
  have hfree : g'.free calls c.keyword := by
    intro b d h1 h2 h3 h4
    by_cases hbj : b = j
    · subst hbj
      rw [hj] at h2
      cases h2
      rw [hcd] at h3
      cases h3
    · exact hcalm b hbj ⟨d, c, h2, hj, h4, .inl h3⟩ h1
  have hcK := hK c (List.mem_of_getElem? hj)
  have haN : g'.a < N := by have := hinv.2; omega
  have key := hrg (g'.x, g'.a) w'.store (fun _ _ _ _ _ h => h) ⟨hinv.1 _ hcK hfree, fun _ _ _ _ => trivial, by simp only; omega⟩
    (by simp only [addRulesG]; omega) _ _ (sureStep hf hr w' e)
  have hex : (w'.exec env e).2.t = w'.t + 1 := exec_t env w' e
  revert key ih
  cases ho : (k (w'.exec env e).1).outcome with
  | none =>
    rintro ih ⟨h1, h2, h3, h4⟩
    refine ⟨⟨g'.x, g'.a, fun b => g'.busy b ∨ b = j⟩, none, .inl ⟨rfl, rfl⟩, ?_, ?_, ih rfl h4⟩
    · exact ixInv_step hj hinv (by omega) (fun b hb => by simp [hb]) (Nat.le_refl _) h3 (fun _ _ => rfl) (fun _ _ => h1.1)
        (by simp only; have := hinv.2; omega)
    · exact ixRely_step hK hj hcalm (fun b hb => by simp [hb]) (Nat.le_refl _) h3 (fun _ _ => rfl) (.inr ⟨h2, .inl rfl⟩)
  | some o =>
    rintro - ⟨⟨x', a'⟩, h1, h2, h3, h4, h5⟩
    have hmv : IxMove A who c g'.x o x' ∧ (∀ kw, kw ≠ c.keyword → x' kw = g'.x kw) ∧ (x' c.keyword = g'.x c.keyword ∨ c.isAdd = true) ∧
        g'.a ≤ a' ∧ a' ≤ g'.a + 1 := by
      cases o with
      | ok r =>
        obtain ⟨h6, h7⟩ := h1
        simp only at h6 h7
        refine ⟨⟨some y, hwho, .inl ?_⟩, ?_, ?_, by omega, by omega⟩
        · simp only [ixStep, if_pos hy, h6, toOutcome, and_self]
        · intro kw hkw
          cases c with
          | add t kw' id =>
            simp only [ixEffect, Prod.mk.injEq] at h6
            rw [← h6.2, Index.set, if_neg (show kw ≠ kw' from hkw)]
          | search t kw' => simp only [ixEffect, Prod.mk.injEq] at h6; rw [h6.2]
          | delete t kw' id => cases hcd
        · cases c with
          | add t kw' id => exact .inr rfl
          | search t kw' => simp only [ixEffect, Prod.mk.injEq] at h6; rw [h6.2]; exact .inl rfl
          | delete t kw' id => cases hcd
      | err er =>
        obtain ⟨h6, h7⟩ := h1
        cases h6
        refine ⟨?_, fun _ _ => rfl, .inl rfl, Nat.le_refl _, Nat.le_succ _⟩
        obtain ⟨rfl, ⟨t, kw, id, rfl⟩, h8⟩ := h7.resolve_left id
        refine ⟨some y, hwho, .inr ⟨?_, rfl, ⟨y, rfl, hy⟩, rfl, rfl⟩⟩
        by_contra hA
        have := hm hA rfl
        simp only [IxCall.keyword] at *
        omega
      | panic => exact h1.elim
      | diverge => exact h1.elim
    obtain ⟨m1, m2, m3, m4, m5⟩ := hmv
    refine ⟨⟨x', a', fun b => g'.busy b ∧ b ≠ j⟩, some o, .inr ⟨rfl, o, rfl, c, hj, m1⟩, ?_, ?_, lin_end ho (fun h : g'.busy j ∧ j ≠ j => h.2 rfl) _⟩
    · exact ixInv_step hj hinv (by omega) (fun b hb => by simp [hb]) m4 h4 m2 (fun _ _ => h2.1) (by simp only; have := hinv.2; omega)
    · exact ixRely_step hK hj hcalm (fun b hb => by simp [hb]) m4 h4 m2 (.inr ⟨h3, m3⟩)

/-- An `Add` or a `Search` that has begun to read. -/
theorem lin_of_rg (hf : NoFault env) (hr : RandOk env) (hK : ∀ c ∈ calls, c.keyword ∈ K) {j : Nat} {c : IxCall} (hj : calls[j]? = some c)
    (hcd : c.isDelete = false) (hlim : a0 + limit ≤ N + t0) {y : Identity} (hwho : who c.token (some y)) (hy : scopeIn scopeIndex y.scopes)
    {m : Nat} (p : Prog IxRes) (g : IxGhost) (w : World) (hb : g.busy j) (hm : ¬ A → c.isAdd = true → m = (g.x c.keyword).length)
    (hrg : Rg (oneRules P i K N c.keyword) (addLinG (fun _ => False) m c) p (g.x, g.a) w.store) (hp : p.outcome = none) :
    Lin (ixRules P i K N env calls A who t0 a0 limit) j p none g w := by
  induction p generalizing g w with
  | op e k ih =>
    intro g' w' h1 h2 h3 h4
    obtain ⟨h5, h6⟩ := (h1.2.2 hb c hj).2 hcd
    have hm' : ¬ A → c.isAdd = true → m = (g'.x c.keyword).length := fun hA ha => by rw [h6 hA ha]; exact hm hA ha
    exact rg_step hf hr hK hj hcd hlim hwho hy h2 h3 h4 hm' (hrg.stable h5) fun ho hrg' => ih _ _ _ (.inr rfl) hm' hrg' ho
  | _ => cases hp

/-- A step of a `Delete`. -/
theorem own_step (hf : NoFault env) (hr : RandOk env) (hK : ∀ c ∈ calls, c.keyword ∈ K) {j : Nat} {t kw id : GoString}
    (hj : calls[j]? = some (.delete t kw id)) (hlim : a0 + limit ≤ N + t0) {y : Identity} (hwho : who t (some y))
    (hy : scopeIn scopeIndex y.scopes) {a1 : Nat} {xs : List GoString} {e : Eff} {k : e.Resp → Prog IxRes} {g' : IxGhost} {w' : World}
    (hinv : (ixRules P i K N env calls A who t0 a0 limit).inv g' w') (hcalm : (ixRules P i K N env calls A who t0 a0 limit).calm j g')
    (ht : w'.t < limit) (hxs : xs = (g'.x kw).filter (· ≠ id)) (ha1 : a1 ≤ g'.a)
    (hown : Own (SameAt P i N kw) (SameElse P i K N kw) (fun o st' => o = .ok .unit ∧ ∀ x' : Index, x' kw = xs → IxRel P i [kw] N st' x' a1)
      (.op e k) w'.store)
    (ih : (k (w'.exec env e).1).outcome = none → Own (SameAt P i N kw) (SameElse P i K N kw)
        (fun o st' => o = .ok .unit ∧ ∀ x' : Index, x' kw = xs → IxRel P i [kw] N st' x' a1) (k (w'.exec env e).1) (w'.exec env e).2.store →
      Lin (ixRules P i K N env calls A who t0 a0 limit) j (k (w'.exec env e).1) none ⟨g'.x, g'.a, fun b => g'.busy b ∨ b = j⟩ (w'.exec env e).2) :
    ∃ g'' d', (ixRules P i K N env calls A who t0 a0 limit).move j none g' d' g'' ∧
      (ixRules P i K N env calls A who t0 a0 limit).inv g'' (w'.exec env e).2 ∧
      (∀ b, b ≠ j → (ixRules P i K N env calls A who t0 a0 limit).rely b g' w' g'' (w'.exec env e).2) ∧
      Lin (ixRules P i K N env calls A who t0 a0 limit) j (k (w'.exec env e).1) d' g'' (w'.exec env e).2 := by
  have haN : g'.a < N := by have := hinv.2; omega
  obtain ⟨h1, h2⟩ := hown w'.store (fun _ _ => rfl) _ _ (sureStep hf hr w' e)
  have hex : (w'.exec env e).2.t = w'.t + 1 := exec_t env w' e
  cases ho : (k (w'.exec env e).1).outcome with
  | none =>
    refine ⟨⟨g'.x, g'.a, fun b => g'.busy b ∨ b = j⟩, none, .inl ⟨rfl, rfl⟩, ?_, ?_, ih ho h2⟩
    · refine ixInv_step hj hinv (by omega) (fun b hb => by simp [hb]) (Nat.le_refl _) h1 (fun _ _ => rfl) (fun _ hfree => ?_)
        (by simp only; have := hinv.2; omega)
      exact absurd rfl (hfree j _ (.inr rfl) hj rfl)
    · exact ixRely_step hK hj hcalm (fun b hb => by simp [hb]) (Nat.le_refl _) h1 (fun _ _ => rfl) (.inl rfl)
  | some o =>
    obtain ⟨rfl, h3⟩ := h2.ended ho
    have hx : ∀ kw', kw' ≠ kw → (g'.x.set kw xs) kw' = g'.x kw' := fun kw' h => by rw [Index.set, if_neg h]
    refine ⟨⟨g'.x.set kw xs, g'.a, fun b => g'.busy b ∧ b ≠ j⟩, some (.ok .unit), .inr ⟨rfl, _, rfl, _, hj, some y, hwho, .inl ?_⟩, ?_, ?_,
      lin_end ho (fun h : g'.busy j ∧ j ≠ j => h.2 rfl) _⟩
    · simp only [ixStep, if_pos hy, ixEffect, toOutcome, hxs, true_and]
      rfl
    · exact ixInv_step hj hinv (by omega) (fun b hb => by simp [hb]) (Nat.le_refl _) h1 hx
        (fun _ _ => (h3 _ (by simp only [Index.set, if_true])).mono ha1) (by simp only; have := hinv.2; omega)
    · exact ixRely_step hK hj hcalm (fun b hb => by simp [hb]) (Nat.le_refl _) h1 hx (.inl rfl)

/-- A `Delete` that has begun to read. -/
theorem lin_of_own (hf : NoFault env) (hr : RandOk env) (hK : ∀ c ∈ calls, c.keyword ∈ K) {j : Nat} {t kw id : GoString}
    (hj : calls[j]? = some (.delete t kw id)) (hlim : a0 + limit ≤ N + t0) {y : Identity} (hwho : who t (some y))
    (hy : scopeIn scopeIndex y.scopes) {a1 : Nat} {xs : List GoString} (p : Prog IxRes) (g : IxGhost) (w : World) (hb : g.busy j)
    (hxs : xs = (g.x kw).filter (· ≠ id)) (ha1 : a1 ≤ g.a)
    (hown : Own (SameAt P i N kw) (SameElse P i K N kw) (fun o st' => o = .ok .unit ∧ ∀ x' : Index, x' kw = xs → IxRel P i [kw] N st' x' a1)
      p w.store) (hp : p.outcome = none) : Lin (ixRules P i K N env calls A who t0 a0 limit) j p none g w := by
  induction p generalizing g w with
  | op e k ih =>
    intro g' w' h1 h2 h3 h4
    obtain ⟨h5, h6⟩ := (h1.2.2 hb _ hj).1 rfl
    simp only [IxCall.keyword] at h5 h6
    have hxs' : xs = (g'.x kw).filter (· ≠ id) := by rw [h5]; exact hxs
    have ha' : a1 ≤ g'.a := Nat.le_trans ha1 h1.2.1
    exact own_step hf hr hK hj hlim hwho hy h2 h3 h4 hxs' ha' (fun st' hs r st'' h => hown st' (fun n hn => (hs n hn).trans (h6 n hn)) r st'' h)
      fun ho hown' => ih _ _ _ (.inr rfl) hxs' ha' hown' ho
  | _ => cases hp

include L in
/-- A call that has been admitted and has not begun to read. -/
theorem lin_ixBody (hf : NoFault env) (hr : RandOk env) (hN : N < 2 ^ 64) (ha : Apart P i K N) {fuel : Nat} (hfuel : N < fuel)
    (hK : ∀ c ∈ calls, c.keyword ∈ K) {j : Nat} {c : IxCall} (hj : calls[j]? = some c)
    (hlim : a0 + limit ≤ N + t0) {y : Identity} (hwho : who c.token (some y)) (hy : scopeIn scopeIndex y.scopes)
    {g : IxGhost} {w : World} (hnb : ¬ g.busy j) (hop : ∃ e k, ixBody P i fuel c = .op e k) :
    Lin (ixRules P i K N env calls A who t0 a0 limit) j (ixBody P i fuel c) none g w := by
  have hcK := hK c (List.mem_of_getElem? hj)
  obtain ⟨e, k, hop⟩ := hop
  rw [hop]
  intro g' w' h1 h2 h3 h4
  have haN : g'.a < N := by have := h2.2; have : w'.t < limit := h4; omega
  cases hcd : c.isDelete with
  | false =>
    have hfree : g'.free calls c.keyword := by
      intro b d q1 q2 q3 q4
      by_cases hbj : b = j
      · subst hbj
        rw [hj] at q2
        cases q2
        rw [hcd] at q3
        cases q3
      · exact h3 b hbj ⟨d, c, q2, hj, q4, .inl q3⟩ q1
    obtain ⟨l0, e0, f1, f2, f3, -, -⟩ := h2.1 _ hcK hfree c.keyword (by simp)
    have hap : Apart P i [c.keyword] N := by
      intro a h a' h' n hn n' hn'
      rw [List.mem_singleton] at h h'
      subst h
      subst h'
      exact ha _ hcK _ hcK n hn n' hn'
    have hrg : Rg (oneRules P i K N c.keyword) (addLinG (fun _ => False) (g'.x c.keyword).length c) (.op e k) (g'.x, g'.a) w'.store := by
      rw [← hop]
      cases c with
      | add t kw id =>
        refine rg_add L SureStep.clean (SameElse.refl _ _ _) hN hap (List.mem_singleton.mpr rfl) trivial (fun h => ?_)
          (fun st n v hn => SameElse.set ha hcK hn _ _) fuel [] _ _ 0 [] (Nat.zero_le _) (.nil 0)
          ⟨l0, e0, by omega, f1, by rw [← f2, List.length_map]⟩ (by simpa using hfuel)
        obtain ⟨-, b, h⟩ := sureStep_rand h
        cases h
      | search t kw =>
        exact rg_search L SureStep.clean (SameElse.refl _ _ _) (List.mem_singleton.mpr rfl) fuel [] [] _ _ 0 [] (Nat.zero_le _) (.nil 0) rfl
          (by simpa using hfuel)
      | delete t kw id => cases hcd
    exact rg_step hf hr hK hj hcd hlim hwho hy h2 h3 h4 (fun _ _ => rfl) hrg fun ho hrg' =>
      lin_of_rg hf hr hK hj hcd hlim hwho hy _ _ _ (.inr rfl) (fun _ _ => rfl) hrg' ho
  | true =>
    cases c with
    | add => cases hcd
    | search => cases hcd
    | delete t kw id =>
      have hinvj : g'.free calls kw := by
        intro b d q1 q2 q3 q4
        by_cases hbj : b = j
        · subst hbj
          exact hnb (h1.1.mp q1)
        · exact h3 b hbj ⟨d, _, q2, hj, q4, .inl q3⟩ q1
      have hown := own_deleteBody L ha hN hcK hfuel t id (h2.1 kw hcK hinvj) (by omega)
      simp only [IxCall.keyword] at hown
      rw [hop] at hown
      exact own_step hf hr hK hj hlim hwho hy h2 h3 h4 rfl (Nat.le_refl _) hown fun ho hown' =>
        lin_of_own hf hr hK hj hlim hwho hy _ _ _ (.inr rfl) rfl (Nat.le_refl _) hown' ho

include L in
theorem ixBody_op {fuel : Nat} (hfuel : 0 < fuel) (c : IxCall) : ∃ e k, ixBody P i fuel c = .op e k := by
  obtain ⟨f, rfl⟩ : ∃ f, fuel = f + 1 := ⟨fuel - 1, by omega⟩
  cases c with
  | add t kw id =>
    rw [ixBody, addBody, getLastNode, getLastNodeLoop, getNextNode_attempt L, op_bind, op_bind]
    exact ⟨_, _, rfl⟩
  | search t kw =>
    rw [ixBody, searchLoop, getNextNode_attempt L, op_bind]
    exact ⟨_, _, rfl⟩
  | delete t kw id =>
    rw [ixBody, deleteLoop, getNextNode_attempt L, op_bind]
    exact ⟨_, _, rfl⟩

include L hk in
/-- A call that has not begun. -/
theorem lin_ixProg (hf : NoFault env) (hr : RandOk env) (hid : IxTells i who) (hN : N < 2 ^ 64) (ha : Apart P i K N) {fuel : Nat} (hfuel : N < fuel)
    (hK : ∀ c ∈ calls, c.keyword ∈ K) {j : Nat} {c : IxCall} (hj : calls[j]? = some c) (hlim : a0 + limit ≤ N + t0) {g : IxGhost} {w : World}
    (hnb : ¬ g.busy j) (ho : (ixProg P i fuel c).outcome = none) :
    Lin (ixRules P i K N env calls A who t0 a0 limit) j (ixProg P i fuel c) none g w := by
  rw [ixProg_eq L hk] at ho ⊢
  obtain ⟨hi1, hi2⟩ := hid c.token
  refine Lin.bind_frame (Q := fun e => ∀ x, e.target ≠ some (x, dtNode)) (A := fun _ => ∃ y, who c.token (some y) ∧ scopeIn scopeIndex y.scopes = true)
    ?_ ?_ ?_ (fun _ => ixBody_op L (by omega) c) ?_ hnb ?_ ho
  · intro e he g w hinv
    have hs : ∀ x, (w.exec env e).2.store x dtNode = w.store x dtNode := fun x => (anyStep env w e).frame (he x)
    have hn : ∀ kw, SameAt P i N kw w.store (w.exec env e).2.store := fun kw n _ => nodes_congr hs kw n
    refine ⟨⟨fun kw hkw hfree => (hinv.1 kw hkw hfree).congr hs, ?_⟩, fun b => ⟨.rfl, Nat.le_refl _, fun _ d _ => ⟨fun _ => ⟨rfl, hn _⟩, fun _ => ⟨?_, fun _ _ => rfl⟩⟩⟩⟩
    · show g.a + t0 ≤ a0 + (w.exec env e).2.t
      rw [exec_t]
      have := hinv.2
      omega
    · intro kw _ n hn' x hx
      exact (hn kw n hn').trans hx
  · refine AllEff.attempt hi1 fun r => ?_
    cases r with
    | error e => trivial
    | ok y => simp only; split <;> trivial
  · refine AllOut.attempt hi2 (fun y hy => ?_) (fun e' _ => ?_) (fun h => h.elim) (fun h => h.elim)
    · simp only
      split
      · trivial
      · rename_i hsc
        refine ⟨y, hy, ?_⟩
        simpa [scopeIn_eq] using hsc
    · trivial
  · refine AllOut.attempt hi2 (fun y hy => ?_) (fun e' hn => ?_) (fun h => h.elim) (fun h => h.elim)
    · simp only
      split
      · rename_i hsc
        rintro e g ⟨⟩
        refine ⟨c, hj, some y, hy, .inl ?_⟩
        have : ¬ scopeIn scopeIndex y.scopes = true := by simpa [scopeIn_eq] using hsc
        simp only [ixStep, if_neg this, toOutcome, and_self]
      · rintro e g ⟨⟩
    · rintro e g ⟨⟩
      exact ⟨c, hj, none, hn, .inl ⟨rfl, rfl⟩⟩
  · rintro - g' w' ⟨y, hy, hsc⟩ hrel
    exact lin_ixBody L hf hr hN ha hfuel hK hj hlim hy hsc (fun h => hnb (hrel.1.mp h)) (ixBody_op L (by omega) c)

include L hk in
/-- C83.  Any number of `Add`, `Search` and `Delete` calls run concurrently on an IO Provider that does not fail, callers may crash, and no two
conflicting calls are ever in progress at the same time.  Then there is an order `l` of calls and their results such that
* the specification gives these results when the calls are made one after the other in this order; only an `Add` may fail with
  `ErrNodeAlreadyExists` instead, without effect, and only if calls of `Add` on the same keyword may overlap (`A`);
* the order agrees with real time: at any moment `n`, the calls that have ended so far are in the first part of it, with the results they
  reported, and the calls that have not begun are not;
* at the end the store represents the index, except for keywords for which a `Delete` is in progress.
For calls that conflict this is false: `C33_lost_add`. -/
theorem C83_linearizable (A : Prop) (hf : NoFault env) (hr : RandOk env) (hid : IxTells i who) (hN : N < 2 ^ 64) (ha : Apart P i K N)
    {fuel : Nat} (hfuel : N < fuel) (calls : List IxCall) (hK : ∀ c ∈ calls, c.keyword ∈ K) {x : Index} {a : Nat} {w : World}
    (h : IxRel P i K N w.store x a) (sch : List Nat) (hlen : a + sch.length ≤ N)
    (hno : ∀ n, n < sch.length → ∀ b j c d, b ≠ j → calls[b]? = some c → calls[j]? = some d →
      InProgress env sch w (calls.map (ixProg P i fuel)) n b → InProgress env sch w (calls.map (ixProg P i fuel)) n j → ¬ IxConflict A c d) :
    ∃ l x', LinRun (fun j x o x' => ∃ c, calls[j]? = some c ∧ IxMove A who c x o x') l x x' ∧ (l.map Prod.fst).Nodup ∧
      (∀ j o, (j, o) ∈ l → j ∈ sch) ∧
      (∀ n, ∃ l1 l2, l = l1 ++ l2 ∧
        (∀ j o, (j, o) ∈ commits env (sch.take n) w (calls.map (ixProg P i fuel)) → (j, o) ∈ l1) ∧
        ∀ j o, (j, o) ∈ l1 → j ∈ sch.take n) ∧
      ∀ kw ∈ K, (∀ j c, calls[j]? = some c → InProgress env sch w (calls.map (ixProg P i fuel)) sch.length j → c.isDelete = true → c.keyword ≠ kw) →
        IxRel P i [kw] N (sched env sch w (calls.map (ixProg P i fuel))).1.store x' N := by
  obtain ⟨l, g', h1, h2, h3, h4, h5, h6⟩ := Lin.sched (R := ixRules P i K N env calls A who w.t a (w.t + sch.length)) sch
    (g := ⟨x, a, fun _ => False⟩) (w := w) (ps := calls.map (ixProg P i fuel)) (ds := fun _ => none) (S := fun _ => False)
    ⟨fun kw hkw _ kw' hkw' => by rw [List.mem_singleton.mp hkw']; exact h kw hkw, Nat.le_refl _⟩
    (by
      intro j p hp ho
      rw [List.getElem?_map, Option.map_eq_some_iff] at hp
      obtain ⟨c, hj, rfl⟩ := hp
      exact lin_ixProg L hk hf hr hid hN ha hfuel hK hj (by omega) (fun h => h) ho)
    (fun b hb => hb.elim) (Nat.le_refl _)
    (by
      rintro n hn b j hbj ⟨hb, hb'⟩ ⟨hj, hj'⟩ ⟨c, d, hc, hd, hcf⟩
      exact hno n hn b j c d hbj hc hd ⟨hb.resolve_left id, hb'⟩ ⟨hj.resolve_left id, hj'⟩ hcf)
  refine ⟨l, g'.x, h1, h2, fun j o hm => (h3 j o hm).2, fun n => ?_, fun kw hkw hq => ?_⟩
  · obtain ⟨l1, l2, g1, g2, g3⟩ := h6 n
    exact ⟨l1, l2, g1, fun j o hm => (g2 j o hm).resolve_right (by simp), g3⟩
  · have ht : ∀ (s : List Nat) (w : World) (ps : List (Prog IxRes)), (sched env s w ps).1.t ≤ w.t + s.length := by
      intro s
      induction s with
      | nil => exact fun _ _ => Nat.le_refl _
      | cons b s ih =>
        intro w ps
        simp only [sched, List.length_cons]
        cases hb : ps[b]? with
        | none => have := ih w ps; simp only; omega
        | some p =>
          cases p with
          | op e k => have := ih (w.exec env e).2 (ps.set b (k (w.exec env e).1)); rw [exec_t] at this; simp only; omega
          | _ => have := ih w ps; simp only; omega
    have := ht sch w (calls.map (ixProg P i fuel))
    have h42 : g'.a + w.t ≤ a + (sched env sch w (calls.map (ixProg P i fuel))).1.t := h4.2
    refine (h4.1 kw hkw fun j c hb hc hd => ?_).mono (by omega)
    obtain ⟨hs, hp⟩ := h5 j hb
    refine hq j c hc ⟨?_, ?_⟩ hd
    · rw [List.take_of_length_le (by omega)]; exact hs.resolve_left id
    · rw [List.take_length]; exact hp

end

/-! ## A concrete case -/

/-- What `toyIndex` tells about a token. -/
def toyIxTells (token : GoString) (r : Option Identity) : Prop := r = if token = [] then none else some ⟨token, scopeAll, []⟩

theorem toyIndex_tells : IxTells toyIndex toyIxTells := by
  intro token
  simp only [toyIndex]
  by_cases h : token = []
  · rw [if_pos h]; exact ⟨trivial, by simp [AllOut, toyIxTells, h]⟩
  · rw [if_neg h]; exact ⟨trivial, by simp [AllOut, toyIxTells, h]⟩

theorem toyIndex_apart30 : Apart toyPrims toyIndex [[107], [108]] 30 := by
  unfold Apart
  decide +kernel

/-- Two entries for keyword `[107]`. -/
def toyPair : World := (((ixProg toyPrims toyIndex 31 (.add [1] [107] [97])).bind fun _ => ixProg toyPrims toyIndex 31 (.add [1] [107] [98])).run
  toyEnv ⟨fun _ _ => none, 0⟩).2

theorem toyPair_rel : IxRel toyPrims toyIndex [[107], [108]] 30 toyPair.store (emptyIndex.set [107] [[97], [98]]) 2 := by
  obtain ⟨w1, h1, h2⟩ := run_ixCall toyLaws (i := toyIndex) rfl toyEnv_noFault toyEnv_randOk toyIndex_idp (K := [[107], [108]]) (N := 30)
    (by decide) toyIndex_apart30 (a := 0) (by decide) (fuel := 31) (by decide) (.add [1] [107] [97]) (by decide) (w := ⟨fun _ _ => none, 0⟩)
    (ixRel_empty fun _ => rfl)
  obtain ⟨w2, h3, h4⟩ := run_ixCall toyLaws (i := toyIndex) rfl toyEnv_noFault toyEnv_randOk toyIndex_idp (K := [[107], [108]]) (N := 30)
    (by decide) toyIndex_apart30 (a := 1) (by decide) (fuel := 31) (by decide) (.add [1] [107] [98]) (by decide) (w := w1) h2
  rw [toyPair, run_bind_ok toyEnv h1, h3]
  have : (ixStep sanitize (ixStep sanitize emptyIndex (ixWho toyIndex toyEnv ⟨fun _ _ => none, 0⟩ [1]) (.add [1] [107] [97])).2
      (ixWho toyIndex toyEnv w1 [1]) (.add [1] [107] [98])).2 = emptyIndex.set [107] [[97], [98]] := by
    have e1 : ∀ w, ixWho toyIndex toyEnv w [1] = some ⟨[1], scopeAll, []⟩ := fun w => by simp [ixWho, toyIndex, Prog.run]
    have e2 : scopeIn scopeIndex scopeAll = true := by decide
    have e3 : sanitize [97] = [97] := by decide
    have e4 : sanitize [98] = [98] := by decide
    rw [e1, e1]
    simp only [ixStep, e2, if_true, ixEffect, e3, e4]
    funext k
    simp only [Index.set, emptyIndex]
    by_cases hk : k = [107] <;> simp [hk]
  rw [← this]
  exact h4

instance (A : Prop) [Decidable A] (a b : IxCall) : Decidable (IxConflict A a b) := by unfold IxConflict; infer_instance

/-- A `Delete` of the first entry of one keyword overlaps with two calls of `Add` and a `Search` on another one; then a `Search` follows. -/
def toyMixCalls : List IxCall := [.delete [1] [107] [97], .add [1] [108] [98], .add [1] [108] [99], .search [1] [108], .search [1] [107]]

def toyMixSch : List Nat := [0, 1, 2, 0, 1, 2, 0, 1, 2, 0, 1, 2, 0, 3, 0, 0, 3, 0, 4, 4]


/-- The hypotheses of C83 hold for it: one `Add` overtakes the other while the `Delete` is in progress. -/
example : toyIndex.indexKey.length = 32 ∧ NoFault toyEnv ∧ RandOk toyEnv ∧ IxTells toyIndex toyIxTells ∧
    Apart toyPrims toyIndex [[107], [108]] 30 ∧ (∀ c ∈ toyMixCalls, c.keyword ∈ [[107], [108]]) ∧
    IxRel toyPrims toyIndex [[107], [108]] 30 toyPair.store (emptyIndex.set [107] [[97], [98]]) 2 ∧ 2 + toyMixSch.length ≤ 30 ∧
    (∀ n, n < toyMixSch.length → ∀ b j c d, b ≠ j → toyMixCalls[b]? = some c → toyMixCalls[j]? = some d →
      InProgress toyEnv toyMixSch toyPair (toyMixCalls.map (ixProg toyPrims toyIndex 31)) n b →
      InProgress toyEnv toyMixSch toyPair (toyMixCalls.map (ixProg toyPrims toyIndex 31)) n j → ¬ IxConflict True c d) ∧
    commits toyEnv toyMixSch toyPair (toyMixCalls.map (ixProg toyPrims toyIndex 31)) =
      [(1, .ok .unit), (2, .err .nodeAlreadyExists), (3, .ok (.ids [[98]])), (0, .ok .unit), (4, .ok (.ids [[98]]))] ∧
    IxConflict True (.delete [1] [107] [97]) (.search [1] [107]) := by
  refine ⟨rfl, toyEnv_noFault, toyEnv_randOk, toyIndex_tells, toyIndex_apart30, by decide, toyPair_rel, by decide, ?_, by decide +kernel, by decide⟩
  have key : ∀ b j : Fin 5, b ≠ j → IxConflict True (toyMixCalls[b.1]'b.2) (toyMixCalls[j.1]'j.2) → ∀ n < 20,
      ¬ (InProgress toyEnv toyMixSch toyPair (toyMixCalls.map (ixProg toyPrims toyIndex 31)) n b ∧
        InProgress toyEnv toyMixSch toyPair (toyMixCalls.map (ixProg toyPrims toyIndex 31)) n j) := by decide +kernel
  intro n hn b j c d hbj hb hj h1 h2 hc
  obtain ⟨hb', rfl⟩ := List.getElem?_eq_some_iff.mp hb
  obtain ⟨hj', rfl⟩ := List.getElem?_eq_some_iff.mp hj
  exact key ⟨b, hb'⟩ ⟨j, hj'⟩ (fun h => hbj (congrArg Fin.val h)) hc n hn ⟨h1, h2⟩

end D1
