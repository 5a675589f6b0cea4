import Verif.Props.Loud
import Verif.Props.Leak
import Mathlib.Data.List.Dedup
/-!
# What the IO Provider learns from the index: C81

documentation/explainer.md:133-137: "The total number of identifiers and keywords is hidden from both the caller and the IO Provider"
and "The IO Provider cannot learn anything from the queries about which identifiers contain which keywords".
-/
namespace D1
open Spec Prog

/-! ## Traces of runs -/

/-- The requests of a run with their answers. -/
def Prog.trace {α : Type} (env : Env) : Prog α → World → List Event
  | op e k, w => ⟨e, (w.exec env e).1⟩ :: (k (w.exec env e).1).trace env (w.exec env e).2
  | _, _ => []

theorem yields_trace {α : Type} (env : Env) (p : Prog α) (w : World) : Yields p (p.trace env w) (p.run env w).1 := by
  induction p generalizing w with
  | op e k ih => exact .op e k _ _ _ (ih _ _)
  | ret a => exact .ret a
  | err a => exact .err a
  | panic => exact .panic
  | diverge => exact .diverge

/-! ## What is seen -/

/-- One request about an index node, as the IO Provider sees it. -/
inductive Seen where
  | get (label : Bytes) (found : Bool)
  | put (label data : Bytes)
  | update (label data : Bytes)
  | delete (label : Bytes)
  deriving DecidableEq

/-- Requests about other records, random bytes and the clock say nothing. -/
def look : Event → Option Seen
  | ⟨.get l dt, r⟩ => if dt = dtNode then some (.get l (match (r : Except IoErr Bytes) with | .ok _ => true | .error _ => false)) else none
  | ⟨.put l dt b, _⟩ => if dt = dtNode then some (.put l b) else none
  | ⟨.update l dt b, _⟩ => if dt = dtNode then some (.update l b) else none
  | ⟨.delete l dt, _⟩ => if dt = dtNode then some (.delete l) else none
  | ⟨.rand _, _⟩ | ⟨.now, _⟩ => none

/-- What the IO Provider sees of a trace; it is not told where a call begins or ends. -/
def seen (tr : List Event) : List Seen := tr.filterMap look

theorem seen_append (a b : List Event) : seen (a ++ b) = seen a ++ seen b := List.filterMap_append

/-- The next request still belongs to a call that has just been told "not found". -/
def goesOn : List Seen → Bool
  | .put .. :: _ | .update .. :: _ | .delete .. :: _ => true
  | _ => false

theorem goesOn_delete (l : Bytes) (r : List Seen) : goesOn (.delete l :: r) = true := rfl

/-- The labels with which calls begin; `b` says whether a call begins here. -/
def firsts : Bool → List Seen → List Bytes
  | _, [] => []
  | b, .get l found :: r => (if b then [l] else []) ++ firsts (!found && !goesOn r) r
  | _, .put .. :: r => firsts true r
  | _, .update .. :: r => firsts false r
  | _, .delete .. :: r => firsts false r

/-- The IO Provider's count: different labels with which some call began and under which there is a record now. -/
def countKeywords (v : List Seen) (st : Store) : Nat := ((firsts true v).dedup.filter fun l => (st l dtNode).isSome).length

/-! ## Reading the requests of one call -/

section
variable {P : Prims} (L : P.Laws) {env : Env} {i : SecureIndex} (hk : i.indexKey.length = 32)

theorem look_evNode (kw : GoString) (c : Nat) (b : Bytes) : look (evNode P i kw c b) = some (.get (ixLabel P i kw c) true) := by
  simp [look, evNode]

theorem look_evNoNode (kw : GoString) (c : Nat) : look (evNoNode P i kw c) = some (.get (ixLabel P i kw c) false) := by
  simp [look, evNoNode]

theorem Told.firsts {kw : GoString} {c e : Nat} {tr : List Event} {ids : List GoString} (h : Told P i kw c tr ids e) (b : Bool)
    (rest : List Seen) : firsts b (seen tr ++ rest) = (if b then [ixLabel P i kw c] else []) ++ D1.firsts (!goesOn rest) rest := by
  induction h generalizing b with
  | stop c => simp [seen, look_evNoNode, D1.firsts]
  | @step c e x n tr ids h1 h2 ih =>
    simp only [seen, List.filterMap_cons, look_evNode, List.cons_append, D1.firsts, Bool.not_true, Bool.false_and]
    rw [show (tr.filterMap look ++ rest) = seen tr ++ rest from rfl, ih]
    simp

theorem Removed.firsts {kw id : GoString} {c : Nat} {tr : List Event} (h : Removed P i kw id c tr) (b : Bool)
    (rest : List Seen) : firsts b (seen tr ++ rest) = (if b then [ixLabel P i kw c] else []) ++ D1.firsts (!goesOn rest) rest := by
  have hd : ∀ l, look ⟨.delete l dtNode, (.ok () : Except IoErr Unit)⟩ = some (.delete l) := fun l => by simp [look]
  have hu : ∀ l x, look ⟨.update l dtNode x, (.ok () : Except IoErr Unit)⟩ = some (.update l x) := fun l x => by simp [look]
  have hr : ∀ n (x : BytesN n), look (evRand n x) = none := fun n x => rfl
  induction h generalizing b with
  | stop c => simp [seen, look_evNoNode, D1.firsts]
  | @keep c x n tr h1 h2 h3 ih =>
    simp only [seen, List.filterMap_cons, look_evNode, List.cons_append, D1.firsts, Bool.not_true, Bool.false_and]
    rw [show (tr.filterMap look ++ rest) = seen tr ++ rest from rfl, ih]
    simp
  | @last c x n tr h1 h2 h3 ih =>
    simp only [seen, List.filterMap_cons, look_evNode, look_evNoNode, hd, List.cons_append, D1.firsts, Bool.not_true, Bool.false_and,
      goesOn_delete, Bool.and_false]
    rw [show (tr.filterMap look ++ rest) = seen tr ++ rest from rfl, ih]
    simp
  | @inner c x x' n m k nn tr h1 h2 h3 h4 ih =>
    simp only [seen, List.filterMap_cons, look_evNode, hd, hu, hr, List.cons_append, D1.firsts, Bool.not_true, Bool.false_and]
    rw [show (tr.filterMap look ++ rest) = seen tr ++ rest from rfl, ih]
    simp

theorem Told.starts {kw : GoString} {c e : Nat} {tr : List Event} {ids : List GoString} (h : Told P i kw c tr ids e) (rest : List Seen) :
    goesOn (seen tr ++ rest) = false := by
  cases h <;> simp [seen, look_evNode, look_evNoNode, goesOn]

theorem Removed.starts {kw id : GoString} {c : Nat} {tr : List Event} (h : Removed P i kw id c tr) (rest : List Seen) :
    goesOn (seen tr ++ rest) = false := by
  cases h <;> simp [seen, look_evNode, look_evNoNode, goesOn]

/-- An Identity Provider that has nothing to do with the records of the index. -/
def IxApart (i : SecureIndex) : Prop := ∀ token, AllEff (fun e => e.dataType ≠ some dtNode) (i.idProvider token)

theorem look_other {ev : Event} (h : ev.1.dataType ≠ some dtNode) : look ev = none := by
  obtain ⟨e, r⟩ := ev
  cases e <;> simp_all [look, Eff.dataType]

theorem IxApart.seen (h : IxApart i) {token : GoString} {tr : List Event} {o : Outcome Identity} (hy : Yields (i.idProvider token) tr o) :
    seen tr = [] := by
  rw [D1.seen, List.filterMap_eq_nil_iff]
  exact fun ev hev => look_other ((h token).yields hy ev hev)

include L hk in
/-- The requests of a successful call, seen among those of other calls. -/
theorem seen_call (hq : IxApart i) {fuel : Nat} {c : IxCall} {tr : List Event} {r : IxRes} (h : Yields (ixProg P i fuel c) tr (.ok r))
    (rest : List Seen) (hrest : goesOn rest = false) :
    firsts true (seen tr ++ rest) = ixLabel P i c.keyword 0 :: firsts true rest ∧ goesOn (seen tr ++ rest) = false := by
  cases c with
  | add t kw id =>
    obtain ⟨t1, t2, _, rfl, h1, h2⟩ := yields_bind_ok.mp h
    obtain ⟨rfl, -⟩ := yields_ret.mp h2
    obtain ⟨trI, trR, y, l, e, k, nn, rfl, hy, ht⟩ := C74_add L hk h1
    have hp : seen [evRand 32 k, evRand 12 nn, ⟨.put (ixLabel P i kw e) dtNode (nodeRec P i kw e ⟨id, (e + 1) % 2 ^ 64⟩ k nn),
        (.ok () : Except IoErr Unit)⟩] = [.put (ixLabel P i kw e) (nodeRec P i kw e ⟨id, (e + 1) % 2 ^ 64⟩ k nn)] := by
      rfl
    rw [List.append_nil, seen_append, hq.seen hy, List.nil_append, seen_append, hp, List.append_assoc, ht.firsts true, ht.starts]
    simp [goesOn, firsts, IxCall.keyword]
  | search t kw =>
    obtain ⟨t1, t2, _, rfl, h1, h2⟩ := yields_bind_ok.mp h
    obtain ⟨rfl, -⟩ := yields_ret.mp h2
    obtain ⟨trI, trR, y, e, rfl, hy, ht⟩ := C74_search L hk h1
    rw [List.append_nil, seen_append, hq.seen hy, List.nil_append, ht.firsts true, ht.starts, hrest]
    simp [IxCall.keyword]
  | delete t kw id =>
    obtain ⟨t1, t2, _, rfl, h1, h2⟩ := yields_bind_ok.mp h
    obtain ⟨rfl, -⟩ := yields_ret.mp h2
    obtain ⟨trI, trR, y, rfl, hy, ht⟩ := C74_delete L hk h1
    rw [List.append_nil, seen_append, hq.seen hy, List.nil_append, ht.firsts true, ht.starts, hrest]
    simp [IxCall.keyword]

include L hk in
/-- A refused call asks for no node. -/
theorem seen_refused (hq : IxApart i) (env : Env) {fuel : Nat} {c : IxCall} {w : World} (h : ∀ y, ixWho i env w c.token = some y →
    scopeIn scopeIndex y.scopes = false) (hi : IxIdp i) : seen ((ixProg P i fuel c).trace env w) = [] := by
  have hy := yields_trace env (ixProg P i fuel c) w
  obtain ⟨w1, -, hv⟩ := run_ixVerifyAccess (env := env) hi c.token w
  have hrun : ∃ e, (i.verifyAccess c.token).run env w = (.err e, w1) := by
    rw [hv]
    cases hw : ixWho i env w c.token with
    | none => exact ⟨_, rfl⟩
    | some y => simp only [h y hw]; exact ⟨_, rfl⟩
  obtain ⟨e, he⟩ := hrun
  have hva : ∀ {tr o}, Yields (i.verifyAccess c.token) tr o → seen tr = [] := by
    intro tr o hyv
    rw [SecureIndex.verifyAccess, yields_attempt] at hyv
    have hend : ∀ (y : Identity) {t o}, Yields (if (!y.scopes.contains scopeIndex) = true then Prog.err Err.ixNotAuthorized else Prog.ret ()) t o → t = [] := by
      intro y t o h
      split at h
      · exact (yields_err.mp h).1
      · exact (yields_ret.mp h).1
    rcases hyv with ⟨t1, t2, y, rfl, h1, h2⟩ | ⟨t1, t2, y, rfl, h1, h2⟩ | ⟨h1, -⟩ | ⟨h1, -⟩
    · rw [hend y h2, List.append_nil]; exact hq.seen h1
    · rw [(yields_err.mp h2).1, List.append_nil]; exact hq.seen h1
    · exact hq.seen h1
    · exact hq.seen h1
  have htr : (ixProg P i fuel c).trace env w = (i.verifyAccess c.token).trace env w := by
    rw [ixProg_eq L hk]
    have : ∀ {α β : Type} (p : Prog α) (k : α → Prog β) (w w1 : World) (e : Err), p.run env w = (.err e, w1) →
        (p.bind k).trace env w = p.trace env w := by
      intro α β p k w w1 e hp
      induction p generalizing w with
      | op e' k' ih =>
        rw [op_bind]
        simp only [Prog.trace]
        rw [ih _ _ hp]
      | ret a => cases hp
      | err a => rfl
      | panic => rfl
      | diverge => rfl
    exact this _ _ _ _ _ he
  rw [htr]
  exact hva (yields_trace env _ w)

/-! ## Counting keywords -/

/-- The requests of a sequence of calls. -/
def ixTrace (P : Prims) (i : SecureIndex) (fuel : Nat) (env : Env) : World → List IxCall → List Event
  | _, [] => []
  | w, c :: r => (ixProg P i fuel c).trace env w ++ ixTrace P i fuel env ((ixProg P i fuel c).run env w).2 r

/-- The call is admitted. -/
def admitted (a : Option Identity × IxCall) : Bool := match a.1 with
  | none => false
  | some y => scopeIn scopeIndex y.scopes

include L hk in
theorem firsts_trace (hf : NoFault env) (hr : RandOk env) (hi : IxIdp i) (hq : IxApart i) {K : List GoString} {N : Nat} (hN : N < 2 ^ 64)
    (ha : Apart P i K N) {fuel : Nat} (hfuel : N < fuel) (calls : List IxCall) (hc : ∀ c ∈ calls, c.keyword ∈ K) {x : Index} {a : Nat}
    (hlen : a + calls.length ≤ N) {w : World} (h : IxRel P i K N w.store x a) :
    firsts true (seen (ixTrace P i fuel env w calls)) =
      ((ixAnnotate P i fuel env w calls).filter admitted).map (fun y => ixLabel P i y.2.keyword 0) ∧
    goesOn (seen (ixTrace P i fuel env w calls)) = false := by
  induction calls generalizing x a w with
  | nil => exact ⟨rfl, rfl⟩
  | cons c r ih =>
    simp only [List.length_cons] at hlen
    obtain ⟨w', h1, h2⟩ := run_ixCall L hk hf hr hi hN ha (by omega) hfuel c (hc c (by simp)) h
    have hw : ((ixProg P i fuel c).run env w).2 = w' := by rw [h1]
    obtain ⟨h3, h4⟩ := ih (fun c' hc' => hc c' (by simp [hc'])) (by omega) h2
    simp only [ixTrace, ixAnnotate, hw, seen_append]
    by_cases hadm : admitted (ixWho i env w c.token, c) = true
    · obtain ⟨y, hy, hs⟩ : ∃ y, ixWho i env w c.token = some y ∧ scopeIn scopeIndex y.scopes = true := by
        simp only [admitted] at hadm
        split at hadm
        · cases hadm
        · next y hy => exact ⟨y, hy, hadm⟩
      have hok : ∃ r, ((ixProg P i fuel c).run env w).1 = .ok r := by
        rw [h1, hy]; simp only [ixStep, hs, if_true, toOutcome]; exact ⟨_, rfl⟩
      obtain ⟨res, hres⟩ := hok
      have hyt := yields_trace env (ixProg P i fuel c) w
      rw [hres] at hyt
      obtain ⟨g1, g2⟩ := seen_call L hk hq hyt _ h4
      rw [List.filter_cons, if_pos hadm, List.map_cons, g1, h3]
      exact ⟨rfl, g2⟩
    · rw [List.filter_cons, if_neg hadm, seen_refused L hk hq env (fun y hy => by
        simp only [admitted, hy] at hadm; simpa using hadm) hi, List.nil_append]
      exact ⟨h3, h4⟩

/-- A keyword that has identifiers has been named in an admitted call. -/
theorem ixAfter_named (norm : GoString → GoString) (x : Index) (l : List (Option Identity × IxCall)) {kw : GoString}
    (h : ixAfter norm x l kw ≠ []) : x kw ≠ [] ∨ ∃ a ∈ l.filter admitted, a.2.keyword = kw := by
  induction l generalizing x with
  | nil => exact .inl h
  | cons a r ih =>
    obtain ⟨who, c⟩ := a
    rcases ih _ h with h1 | ⟨b, hb, hkw⟩
    · by_cases hadm : admitted (who, c) = true
      · by_cases hck : c.keyword = kw
        · exact .inr ⟨(who, c), by rw [List.filter_cons, if_pos hadm]; simp, hck⟩
        · left
          intro hx
          apply h1
          simp only [admitted] at hadm
          cases who with
          | none => cases hadm
          | some y =>
            simp only at hadm
            simp only [ixStep, if_pos hadm]
            have hck' : ¬ kw = c.keyword := fun h => hck h.symm
            cases c <;> simp only [IxCall.keyword] at hck' <;> simp [ixEffect, Index.set, hck', hx]
      · left
        cases who with
        | none => exact h1
        | some y =>
          simp only [admitted] at hadm
          simpa only [ixStep, if_neg hadm] using h1
    · right
      refine ⟨b, ?_, hkw⟩
      rw [List.filter_cons]
      split
      · exact List.mem_cons_of_mem _ hb
      · exact hb

theorem IxRel.first {K : List GoString} {N a : Nat} {st : Store} {x : Index} (h : IxRel P i K N st x a) {kw : GoString} (hkw : kw ∈ K) :
    (st (ixLabel P i kw 0) dtNode).isSome = true ↔ x kw ≠ [] := by
  obtain ⟨l, e, h1, h2, h3, h4, h5⟩ := h kw hkw
  cases h1 with
  | nil =>
    have : nodes P i st kw 0 = none := h4 0 (Nat.zero_le _) (by simp)
    rw [nodes_none] at this
    rw [← h2, this]; simp
  | cons g1 g2 g3 =>
    obtain ⟨b, hb⟩ := nodes_some g1
    rw [← h2, hb]; simp

include L hk in
/-- C81, false: the IO Provider can tell, at any time and without any key, how many keywords the index holds.  `countKeywords` is a function of
the requests it has been sent and of the records it holds.  (For all sequences of calls from an empty index; `K` are the keywords with
identifiers, without repetition.) -/
theorem C81_counted (hf : NoFault env) (hr : RandOk env) (hi : IxIdp i) (hq : IxApart i) (calls : List IxCall) (hN : calls.length < 2 ^ 64)
    (ha : Apart P i (calls.map IxCall.keyword) calls.length) {fuel : Nat} (hfuel : calls.length < fuel) {w : World}
    (h : ∀ x, w.store x dtNode = none) (K : List GoString) (hK : K.Nodup)
    (hKx : ∀ kw, kw ∈ K ↔ ixAfter sanitize emptyIndex (ixAnnotate P i fuel env w calls) kw ≠ []) :
    countKeywords (seen (ixTrace P i fuel env w calls)) (ixCodeAfter P i fuel env w calls).store = K.length := by
  have hmem : ∀ c ∈ calls, c.keyword ∈ calls.map IxCall.keyword := fun _ hc => List.mem_map_of_mem hc
  have hrel := (C27_index_from L hk hf hr hi hN ha hfuel calls hmem (by omega) (ixRel_empty (P := P) (i := i) h)).2
  obtain ⟨hfs, -⟩ := firsts_trace L hk hf hr hi hq hN ha hfuel calls hmem (by omega) (ixRel_empty (P := P) (i := i) h)
  -- keywords in the annotated calls are keywords of calls
  have hann : ∀ {w : World} {cs : List IxCall}, ∀ a ∈ ixAnnotate P i fuel env w cs, a.2 ∈ cs := by
    intro w cs
    induction cs generalizing w with
    | nil => intro a ha; cases ha
    | cons c r ih =>
      intro a ha
      rcases List.mem_cons.mp ha with rfl | ha
      · simp
      · exact List.mem_cons_of_mem _ (ih a ha)
  have hsub : ∀ kw ∈ K, kw ∈ calls.map IxCall.keyword ∧ ∃ a ∈ (ixAnnotate P i fuel env w calls).filter admitted, a.2.keyword = kw := by
    intro kw hkw
    rcases ixAfter_named _ _ _ ((hKx kw).mp hkw) with h1 | ⟨a, ha, hakw⟩
    · exact absurd rfl h1
    · exact ⟨hakw ▸ hmem _ (hann a (List.mem_filter.mp ha).1), a, ha, hakw⟩
  rw [countKeywords, hfs, ← List.length_map (f := fun kw => ixLabel P i kw 0) (as := K)]
  refine List.Perm.length_eq ((List.perm_ext_iff_of_nodup ?_ ?_).mpr ?_)
  · exact (List.nodup_dedup _).filter _
  · refine hK.map_on fun a h1 b h2 hab => ?_
    exact (ha a (hsub a h1).1 b (hsub b h2).1 0 (Nat.zero_le _) 0 (Nat.zero_le _) hab).1
  · intro l
    rw [List.mem_filter, List.mem_dedup, List.mem_map, List.mem_map]
    constructor
    · rintro ⟨⟨a, h1, rfl⟩, h2⟩
      have hk1 : a.2.keyword ∈ calls.map IxCall.keyword := hmem _ (hann a (List.mem_filter.mp h1).1)
      exact ⟨a.2.keyword, (hKx _).mpr ((hrel.first hk1).mp h2), rfl⟩
    · rintro ⟨kw, h1, rfl⟩
      obtain ⟨h2, a, h3, rfl⟩ := hsub kw h1
      exact ⟨⟨a, h3, rfl⟩, (hrel.first h2).mpr ((hKx _).mp h1)⟩

end

/-! ## What is hidden: keywords

For every renaming of the keywords there is a KMAC under which all calls with renamed keywords are the same programs as the calls themselves:
they send the same requests, whatever the answers.  The other KMAC is the given one with its inputs renamed. -/

/-- The same call about another keyword. -/
def _root_.D1.Spec.IxCall.withKeyword : IxCall → GoString → IxCall
  | .add t _ id, kw => .add t kw id
  | .search t _, kw => .search t kw
  | .delete t _ id, kw => .delete t kw id

/-- The primitives with another sponge. -/
def Prims.withSponge (P : Prims) (s : Nat → Bytes → Nat → Bytes) : Prims := { P with sponge := s }

theorem withSponge_laws {P : Prims} (L : P.Laws) {s : Nat → Bytes → Nat → Bytes} (h : ∀ r m n, (s r m n).length = n) : (P.withSponge s).Laws where
  aes_len := L.aes_len
  aes_dec_enc := L.aes_dec_enc
  aes_dec_len := L.aes_dec_len
  aes_enc_dec := L.aes_enc_dec
  gcm_len := L.gcm_len
  gcm_open_seal := L.gcm_open_seal
  gcm_seal_open := L.gcm_seal_open
  sponge_len := h
  pbkdf2_len := L.pbkdf2_len
  unmarshal_render := L.unmarshal_render
  uuid_parse := L.uuid_parse
  time_parse := L.time_parse
  time_plain := L.time_plain

section
variable {P : Prims} {i : SecureIndex} (hk : i.indexKey.length = 32)

include hk in
theorem purposeInput_inj {p p' : Purpose} {kw kw' : GoString} (h : purposeInput i p kw = purposeInput i p' kw') : p = p' ∧ kw = kw' := by
  have hl : ∀ p : Purpose, p.name.length * 8 < 2 ^ 64 := fun p => by cases p <;> decide
  obtain ⟨-, e2, e3, -⟩ := kmacInput_inj (by omega) (by rw [hk]; omega) (by rw [hk]; omega) (hl p) (hl p') (by omega) (by omega) h
  refine ⟨?_, e3⟩
  cases p <;> cases p' <;> first | rfl | exact absurd e2 (by decide)

open Classical in
/-- Rename the keyword in an input that the index makes for a keyword. -/
noncomputable def renameInput (i : SecureIndex) (σ : GoString → GoString) (m : Bytes) : Bytes :=
  if h : ∃ q : Purpose × GoString, m = purposeInput i q.1 q.2 then purposeInput i h.choose.1 (σ h.choose.2) else m

include hk in
theorem renameInput_key (σ : GoString → GoString) (p : Purpose) (kw : GoString) :
    renameInput i σ (purposeInput i p kw) = purposeInput i p (σ kw) := by
  have h : ∃ q : Purpose × GoString, purposeInput i p kw = purposeInput i q.1 q.2 := ⟨(p, kw), rfl⟩
  rw [renameInput, dif_pos h]
  obtain ⟨h1, h2⟩ := purposeInput_inj hk h.choose_spec
  rw [← h1, ← h2]

include hk in
theorem renameInput_inj {σ : GoString → GoString} (hσ : σ.Injective) : (renameInput i σ).Injective := by
  intro a b h
  by_cases ha : ∃ q : Purpose × GoString, a = purposeInput i q.1 q.2
  · obtain ⟨⟨p, kw⟩, rfl⟩ := ha
    by_cases hb : ∃ q : Purpose × GoString, b = purposeInput i q.1 q.2
    · obtain ⟨⟨p', kw'⟩, rfl⟩ := hb
      rw [renameInput_key hk, renameInput_key hk] at h
      obtain ⟨rfl, h2⟩ := purposeInput_inj hk h
      rw [hσ h2]
    · rw [renameInput_key hk, renameInput, dif_neg hb] at h
      exact absurd ⟨(p, σ kw), h.symm⟩ hb
  · by_cases hb : ∃ q : Purpose × GoString, b = purposeInput i q.1 q.2
    · obtain ⟨⟨p', kw'⟩, rfl⟩ := hb
      rw [renameInput_key hk, renameInput, dif_neg ha] at h
      exact absurd ⟨(p', σ kw'), h⟩ ha
    · rwa [renameInput, renameInput, dif_neg ha, dif_neg hb] at h

include hk in
/-- Inputs for labels are not renamed: they have another customization. -/
theorem renameInput_label (L : P.Laws) (σ : GoString → GoString) (kw : GoString) (c : Nat) : renameInput i σ (labelInput P i kw c) = labelInput P i kw c := by
  rw [renameInput, dif_neg]
  rintro ⟨⟨p, kw'⟩, h⟩
  obtain ⟨-, e2, -, -⟩ := kmacInput_inj (by omega) (by rw [L.sponge_len]; omega) (by rw [hk]; omega) (renderCounter_length _)
    (by cases p <;> simp [Purpose.name]) (by omega) (by omega) h
  have := congrArg List.head? e2
  rw [J.ofBytes, J.render, renderStr] at this
  cases p <;> exact absurd this (by simp [Purpose.name])

end

section
variable {P : Prims} {i : SecureIndex}

/-- The primitives with a KMAC whose inputs are renamed. -/
noncomputable def Prims.renamed (P : Prims) (i : SecureIndex) (σ : GoString → GoString) : Prims :=
  P.withSponge fun r m n => P.sponge r (renameInput i σ m) n

theorem renamed_laws (L : P.Laws) (σ : GoString → GoString) : (P.renamed i σ).Laws := withSponge_laws L fun _ _ _ => L.sponge_len _ _ _

theorem renamed_key (hk : i.indexKey.length = 32) (σ : GoString → GoString) (p : Purpose) (kw : GoString) :
    (P.renamed i σ).sponge 136 (purposeInput i p kw) 32 = P.sponge 136 (purposeInput i p (σ kw)) 32 := by
  show P.sponge 136 (renameInput i σ (purposeInput i p kw)) 32 = _
  rw [renameInput_key hk]

theorem renamed_tagger (hk : i.indexKey.length = 32) (σ : GoString → GoString) (kw : GoString) :
    ixTagger (P.renamed i σ) i kw = ixTagger P i (σ kw) := congrArg Tagger.mk (renamed_key hk σ .label kw)

theorem renamed_cryptor (hk : i.indexKey.length = 32) (σ : GoString → GoString) (kw : GoString) :
    ixCryptor (P.renamed i σ) i kw = ixCryptor P i (σ kw) := congrArg Cryptor.mk (renamed_key hk σ .id kw)

theorem renamed_label (L : P.Laws) (hk : i.indexKey.length = 32) (σ : GoString → GoString) (kw : GoString) (c : Nat) :
    ixLabel (P.renamed i σ) i kw c = ixLabel P i (σ kw) c := by
  have h : labelInput (P.renamed i σ) i kw c = labelInput P i (σ kw) c := by
    rw [labelInput, labelInput]
    exact congrArg (fun k => kmacInput 136 k _ [] 32) (renamed_key hk σ .label kw)
  rw [ixLabel, h]
  show P.sponge 136 (renameInput i σ (labelInput P i (σ kw) c)) 32 = _
  rw [renameInput_label hk L]
  rfl

theorem renamed_readNode (L : P.Laws) (hk : i.indexKey.length = 32) (σ : GoString → GoString) (kw : GoString) (c : Nat) (r : Except IoErr Bytes) :
    readNode (P.renamed i σ) i kw c r = readNode P i (σ kw) c r := by
  cases r with
  | error e => rfl
  | ok b =>
    simp only [readNode, renamed_label L hk, renamed_cryptor hk]
    rfl

theorem renamed_sealedNode (L : P.Laws) (hk : i.indexKey.length = 32) (σ : GoString → GoString) (kw : GoString) (c : Nat) (n : Node)
    (k : BytesN 32) (nn : BytesN 12) : sealedNode (P.renamed i σ) i kw c n k nn = sealedNode P i (σ kw) c n k nn := by
  simp only [sealedNode, renamed_label L hk, renamed_cryptor hk]
  rfl

theorem renamed_seal (L : P.Laws) (hk : i.indexKey.length = 32) (σ : GoString → GoString) (kw : GoString) (c : Nat) (n : Node) :
    n.seal (P.renamed i σ) (ixLabel (P.renamed i σ) i kw c) (ixCryptor (P.renamed i σ) i kw) = n.seal P (ixLabel P i (σ kw) c) (ixCryptor P i (σ kw)) := by
  rw [node_seal_eq (renamed_laws L σ), node_seal_eq L]
  simp only [renamed_sealedNode L hk]

theorem op_get_congr {α : Type} {l l' : Bytes} {dt : DataType} {k k' : Except IoErr Bytes → Prog α} (h : l = l') (hk : ∀ r, k r = k' r) :
    Prog.op (.get l dt) k = .op (.get l' dt) k' := by
  subst h
  rw [funext hk]

theorem renamed_searchLoop (L : P.Laws) (hk : i.indexKey.length = 32) (σ : GoString → GoString) (kw : GoString) (fuel : Nat) (n : Node)
    (acc : List GoString) : searchLoop (P.renamed i σ) (ixTagger (P.renamed i σ) i kw) (ixCryptor (P.renamed i σ) i kw) fuel n acc =
      searchLoop P (ixTagger P i (σ kw)) (ixCryptor P i (σ kw)) fuel n acc := by
  induction fuel generalizing n acc with
  | zero => rfl
  | succ fuel ih =>
    rw [searchLoop, searchLoop, getNextNode_attempt (renamed_laws L σ), getNextNode_attempt L]
    refine op_get_congr (renamed_label L hk σ kw _) fun r => ?_
    simp only [renamed_readNode L hk, ih]

theorem renamed_getLastNode (L : P.Laws) (hk : i.indexKey.length = 32) (σ : GoString → GoString) (kw : GoString) (fuel : Nat) (n : Node) :
    getLastNodeLoop (P.renamed i σ) (ixTagger (P.renamed i σ) i kw) (ixCryptor (P.renamed i σ) i kw) fuel n =
      getLastNodeLoop P (ixTagger P i (σ kw)) (ixCryptor P i (σ kw)) fuel n := by
  induction fuel generalizing n with
  | zero => rfl
  | succ fuel ih =>
    rw [getLastNodeLoop, getLastNodeLoop, getNextNode_attempt (renamed_laws L σ), getNextNode_attempt L]
    refine op_get_congr (renamed_label L hk σ kw _) fun r => ?_
    simp only [renamed_readNode L hk, ih]

theorem renamed_deleteNode (L : P.Laws) (hk : i.indexKey.length = 32) (σ : GoString → GoString) (kw : GoString) (c : Nat) (n : Node) :
    deleteNode (P.renamed i σ) (ixLabel (P.renamed i σ) i kw c) n (ixTagger (P.renamed i σ) i kw) (ixCryptor (P.renamed i σ) i kw) =
      deleteNode P (ixLabel P i (σ kw) c) n (ixTagger P i (σ kw)) (ixCryptor P i (σ kw)) := by
  rw [deleteNode, deleteNode, getNextNode_attempt (renamed_laws L σ), getNextNode_attempt L]
  refine op_get_congr (renamed_label L hk σ kw _) fun r => ?_
  simp only [renamed_readNode L hk, renamed_seal L hk, nextLabel_eq (renamed_laws L σ), nextLabel_eq L]
  simp only [renamed_label L hk]

theorem renamed_deleteLoop (L : P.Laws) (hk : i.indexKey.length = 32) (σ : GoString → GoString) (kw id : GoString) (fuel : Nat) (n : Node) :
    deleteLoop (P.renamed i σ) (ixTagger (P.renamed i σ) i kw) (ixCryptor (P.renamed i σ) i kw) id fuel n =
      deleteLoop P (ixTagger P i (σ kw)) (ixCryptor P i (σ kw)) id fuel n := by
  induction fuel generalizing n with
  | zero => rfl
  | succ fuel ih =>
    rw [deleteLoop, deleteLoop, getNextNode_attempt (renamed_laws L σ), getNextNode_attempt L]
    refine op_get_congr (renamed_label L hk σ kw _) fun r => ?_
    simp only [renamed_readNode L hk, nextLabel_eq (renamed_laws L σ), nextLabel_eq L, bind_eq, ofPanic_some, ret_bind,
      renamed_deleteNode L hk, ih]

/-- C81, the part that holds for keywords: whatever the keywords are called, the requests can be the same.  For every renaming `σ` of the
keywords there is a KMAC under which each call is the very program that the call with the renamed keyword is under the given KMAC.  The
other KMAC is the given one on renamed inputs; if `σ` maps different keywords to different keywords, it has no more collisions on them. -/
theorem C81_keywords_partial (L : P.Laws) (hk : i.indexKey.length = 32) (σ : GoString → GoString) :
    ∃ P' : Prims, P'.Laws ∧ (∃ ρ : Bytes → Bytes, (σ.Injective → ρ.Injective) ∧ P' = P.withSponge fun r m n => P.sponge r (ρ m) n) ∧
      ∀ fuel c, ixProg P' i fuel c = ixProg P i fuel (c.withKeyword (σ c.keyword)) := by
  refine ⟨P.renamed i σ, renamed_laws L σ, ⟨renameInput i σ, fun hσ => renameInput_inj hk hσ, rfl⟩, fun fuel c => ?_⟩
  rw [ixProg_eq (renamed_laws L σ) hk, ixProg_eq L hk]
  cases c with
  | add t kw id =>
    simp only [IxCall.token, IxCall.withKeyword, IxCall.keyword, ixBody, addBody, getLastNode, renamed_getLastNode L hk, renamed_seal L hk]
    simp only [renamed_label L hk]
  | search t kw => simp only [IxCall.token, IxCall.withKeyword, IxCall.keyword, ixBody, renamed_searchLoop L hk]
  | delete t kw id => simp only [IxCall.token, IxCall.withKeyword, IxCall.keyword, ixBody, renamed_deleteLoop L hk]

end

/-- A case: two keywords, one of them with two identifiers, a search and a deletion. -/
example : let calls : List IxCall := [.add [1] [107] [97], .add [1] [108] [98], .add [1] [107] [99], .search [1] [109], .delete [1] [108] [98],
      .add [1] [108] [97], .add [] [110] [97]]
    countKeywords (seen (ixTrace toyPrims toyIndex 9 toyEnv ⟨fun _ _ => none, 0⟩ calls))
      (ixCodeAfter toyPrims toyIndex 9 toyEnv ⟨fun _ _ => none, 0⟩ calls).store = 2 ∧ IxApart toyIndex := by
  refine ⟨by decide +kernel, fun token => ?_⟩
  simp only [toyIndex]
  split <;> trivial

end D1
