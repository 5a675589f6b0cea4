import Verif.Props.Freshness
import Verif.Props.KeywordGame
import Verif.Props.Identifiers
import Verif.Props.IndexLinear
import Verif.Props.Format
/-!
# C115: the labels of the index differ

C27, C29, C30, C32, C65, C81, C83 and C88 are about keys of the index for which different keywords and counters have different labels
(`Apart`).  Here the key is random.  Labels that do not differ are then an attack on the key derivation.
-/
namespace D1
open Spec Prog

/-! ## The attacks -/

/-- What is asked for the label of a counter. -/
def counterAsk (c : Nat) : Bytes × Bytes := ((J.ofBytes (some (uvarint c))).render, [])

/-- The labels of the counters up to `N` under a key. -/
def tagsOf (P : Prims) (N : Nat) (key : BytesN 32) : List Bytes := (List.range (N + 1)).map fun c => derived P key (counterAsk c)

/-- Bytes as a key. -/
def toKey (b : Bytes) : BytesN 32 := if h : b.length = 32 then ⟨b, h⟩ else noKey

/-- Some of these are the same. -/
def same2 (l : List Bytes) : Bool := !decide l.Nodup

def askAll : List (Bytes × Bytes) → (List Bytes → Bool) → OAdv (Bytes × Bytes) fun _ => Bytes
  | [], g => .done (g [])
  | q :: qs, g => .ask q fun r => askAll qs fun l => g (r :: l)

def tossAll : Nat → (List (BytesN 32) → OAdv (Bytes × Bytes) fun _ => Bytes) → OAdv (Bytes × Bytes) fun _ => Bytes
  | 0, k => k []
  | n + 1, k => .toss 32 fun b => tossAll n fun l => k (b :: l)

/-- Ask for the keys of the keywords, and see whether their labels differ. -/
def keysAttack (P : Prims) (K : List GoString) (N : Nat) : OAdv (Bytes × Bytes) fun _ => Bytes :=
  askAll (K.map fun kw => (labelLabel, kw)) fun ks => same2 (ks.flatMap fun k => tagsOf P N (toKey k))

/-- Ask for the labels of one keyword, and see whether they differ from each other, from those under `b` random keys, and from
random labels for `a` keywords. -/
def tagsAttack (P : Prims) (N a b : Nat) : OAdv (Bytes × Bytes) fun _ => Bytes :=
  tossAll b fun ts => tossAll (a * (N + 1)) fun l => askAll ((List.range (N + 1)).map counterAsk) fun r =>
    same2 (ts.flatMap (tagsOf P N) ++ r ++ l.map Subtype.val)

/-! ## Playing them -/

theorem reel_cons {α : Type} (T : Nat) (f : List (BytesN 32) → PMF α) :
    (reel (T + 1)).bind f = (unif 32).bind fun b => (reel T).bind fun l => f (b :: l) := by
  induction T generalizing f with
  | zero => simp [reel]
  | succ T ih =>
    rw [reel_bind, ih]
    congr 1; funext b
    rw [reel_bind]
    rfl

theorem reel_add {α : Type} (m n : Nat) (f : List (BytesN 32) → PMF α) :
    (reel (m + n)).bind f = (reel m).bind fun x => (reel n).bind fun y => f (x ++ y) := by
  induction m generalizing f with
  | zero => simp [reel]
  | succ m ih =>
    rw [show m + 1 + n = (m + n) + 1 by omega, reel_cons, reel_cons]
    congr 1; funext b
    rw [ih]
    rfl

theorem play_askAll_real (P : Prims) (key : BytesN 32) (qs : List (Bytes × Bytes)) (g : List Bytes → Bool) :
    (askAll qs g).play (kdfReal P key) () = PMF.pure (g (qs.map (derived P key))) := by
  induction qs generalizing g with
  | nil => rfl
  | cons q qs ih => simp only [askAll, OAdv.play, kdfReal, PMF.pure_bind, ih, List.map_cons]

theorem play_askAll_random (qs : List (Bytes × Bytes)) (hq : qs.Nodup) (g : List Bytes → Bool) (T : List ((Bytes × Bytes) × Bytes))
    (hT : ∀ q ∈ qs, T.lookup q = none) :
    (askAll qs g).play kdfRandom T = (reel qs.length).bind fun l => PMF.pure (g (l.map Subtype.val)) := by
  induction qs generalizing g T with
  | nil => simp [askAll, OAdv.play, reel]
  | cons q qs ih =>
    rw [List.nodup_cons] at hq
    simp only [askAll, OAdv.play, kdfRandom, hT q List.mem_cons_self, PMF.bind_bind, PMF.pure_bind, List.length_cons, reel_cons]
    congr 1; funext b
    rw [ih hq.2 _ _ fun x hx => ?_]
    · rfl
    · rw [List.lookup_cons, show (x == q) = false from beq_eq_false_iff_ne.mpr fun e => hq.1 (e ▸ hx)]
      exact hT x (List.mem_cons_of_mem _ hx)

theorem play_tossAll {σ : Type} (oracle : Bytes × Bytes → σ → PMF (Bytes × σ)) (s : σ) (n : Nat)
    (k : List (BytesN 32) → OAdv (Bytes × Bytes) fun _ => Bytes) :
    (tossAll n k).play oracle s = (reel n).bind fun l => (k l).play oracle s := by
  induction n generalizing k with
  | zero => simp [tossAll, reel]
  | succ n ih =>
    simp only [tossAll, OAdv.play, reel_cons]
    congr 1; funext b
    exact ih _

/-! ## Labels and keys replaced by random ones -/

/-- Labels of `b` keywords under random keys, and random labels of `a` keywords. -/
noncomputable def mixed (P : Prims) (N a b : Nat) : PMF Bool :=
  (reel b).bind fun ts => (reel (a * (N + 1))).bind fun l => PMF.pure (same2 (ts.flatMap (tagsOf P N) ++ l.map Subtype.val))

theorem counterAsk_nodup {N : Nat} (hN : N < 2 ^ 64) : ((List.range (N + 1)).map counterAsk).Nodup := by
  refine List.Nodup.map_on (fun c hc c' hc' h => ?_) List.nodup_range
  rw [List.mem_range] at hc hc'
  have h1 := (text_render (J.ofBytes (some (uvarint c))))
  have h2 := (text_render (J.ofBytes (some (uvarint c'))))
  rw [(Prod.mk.inj h).1] at h1
  have h3 := (text_det h1 h2 (x := []) (y := []) trivial trivial rfl).2.1
  rw [san_ofBytes, san_ofBytes] at h3
  simp only [J.ofBytes, J.str.injEq] at h3
  exact uvarint_inj (by omega) (by omega) (b64Enc_inj false h3)

theorem gap_mixed (P : Prims) {N : Nat} (hN : N < 2 ^ 64) (a b : Nat) : gap (mixed P N a (b + 1)) (mixed P N (a + 1) b) = kdfGap P (tagsAttack P N a b) := by
  have h1 : mixed P N a (b + 1) = (unif 32).bind fun key => (tagsAttack P N a b).play (kdfReal P key) () := by
    simp only [tagsAttack, play_tossAll, play_askAll_real, mixed, reel_bind]
    rw [PMF.bind_comm]
    congr 1; funext ts
    congr 1; funext key
    congr 1; funext l
    simp [tagsOf, List.map_map, Function.comp_def]
  have h2 : mixed P N (a + 1) b = (tagsAttack P N a b).play kdfRandom [] := by
    simp only [tagsAttack, play_tossAll, mixed]
    congr 1; funext ts
    rw [show (a + 1) * (N + 1) = (N + 1) + a * (N + 1) by ring, reel_add, PMF.bind_comm]
    congr 1; funext l
    rw [play_askAll_random _ (counterAsk_nodup hN) _ _ fun _ _ => rfl]
    simp only [List.length_map, List.length_range, List.map_append, List.append_assoc]
  rw [kdfGap, h1, h2]

theorem chance_mixed (P : Prims) (N k : Nat) : chance (mixed P N k 0) ≤ ((k * (N + 1) : Nat) : ℝ) * ((k * (N + 1) : Nat) - 1) / 2 / 256 ^ 32 := by
  have := odds_repeat (fun b : BytesN 32 => cut b 32) [] (by positivity) (prob_cut (Nat.le_refl 32)) (k * (N + 1))
  rw [List.length_nil, Nat.cast_zero, mul_zero, zero_add, ← div_eq_mul_one_div] at this
  refine le_trans (le_of_eq ?_) this
  simp only [mixed, reel, PMF.pure_bind, List.flatMap_nil, List.nil_append, odds, prob]
  congr 2; funext l
  congr 1
  have e : l.map (fun b => cut b 32) = l := by
    rw [List.map_congr_left (g := id), List.map_id]
    intro b _
    exact Subtype.ext (by rw [cut_val b (Nat.le_refl 32), List.take_of_length_le (by rw [b.2])]; rfl)
  have : AllNew (fun b : BytesN 32 => cut b 32) [] l ↔ (l.map Subtype.val).Nodup := by
    rw [List.nodup_map_iff Subtype.val_injective]
    simp [AllNew, e]
  simp [same2, this]

/-! ## C115 -/

theorem label_derived {P : Prims} (L : P.Laws) (i : SecureIndex) (key : BytesN 32) (kw : GoString) (c : Nat) :
    ixLabel P (i.withKey key) kw c = derived P (toKey (derived P key (labelLabel, kw))) (counterAsk c) := by
  have h1 : derived P key (labelLabel, kw) = P.sponge 136 (taggerInput (i.withKey key) kw) 32 := by
    rw [derived, kmacKdf_eq P 32 _ _ _ (by rw [key.2]) (by omega)]
    simp [taggerInput, SecureIndex.withKey]
  have h2 : toKey (P.sponge 136 (taggerInput (i.withKey key) kw) 32) = ⟨_, L.sponge_len 136 (taggerInput (i.withKey key) kw) 32⟩ :=
    dif_pos (L.sponge_len _ _ _)
  rw [h1, h2, derived, kmacKdf_eq P 32 _ _ _ (by rw [L.sponge_len]) (by omega)]
  rfl

theorem apart_of_nodup {P : Prims} {i : SecureIndex} {K : List GoString} {N : Nat}
    (h : (K.flatMap fun kw => (List.range (N + 1)).map fun c => ixLabel P i kw c).Nodup) : Apart P i K N := by
  intro kw hkw kw' hkw' c hc c' hc' e
  rw [List.nodup_flatMap] at h
  have hm : ∀ kw c, c ≤ N → ixLabel P i kw c ∈ (List.range (N + 1)).map fun c => ixLabel P i kw c := fun kw c hc =>
    List.mem_map.mpr ⟨c, List.mem_range.mpr (by omega), rfl⟩
  have hkk : kw = kw' := by
    by_contra hne
    have : Std.Symm (Function.onFun List.Disjoint fun kw => (List.range (N + 1)).map fun c => ixLabel P i kw c) := ⟨fun _ _ h => List.Disjoint.symm h⟩
    exact List.Pairwise.forall h.2 hkw hkw' hne (hm kw c hc) (e ▸ hm kw' c' hc')
  subst hkk
  exact ⟨rfl, List.inj_on_of_nodup_map (h.1 kw hkw) (List.mem_range.mpr (by omega)) (List.mem_range.mpr (by omega)) e⟩

/-- C115: for a random key of the index, different keywords and counters have different labels, but for attacks on the key derivation and
the chance that random labels are the same. -/
theorem C115_labels {P : Prims} (L : P.Laws) (i : SecureIndex) {K : List GoString} (hK : K.Nodup) {N : Nat} (hN : N < 2 ^ 64) :
    prob (unif 32) (fun key => ¬Apart P (i.withKey key) K N) ≤
      kdfGap P (keysAttack P K N) + ∑ m ∈ Finset.range K.length, kdfGap P (tagsAttack P N m (K.length - (m + 1))) +
        ((K.length * (N + 1) : Nat) : ℝ) * ((K.length * (N + 1) : Nat) - 1) / 2 / 256 ^ 32 := by
  have h1 : prob (unif 32) (fun key => ¬Apart P (i.withKey key) K N) ≤ chance ((unif 32).bind fun key => (keysAttack P K N).play (kdfReal P key) ()) := by
    refine (prob_mono _ (F := fun key => (same2 (K.flatMap fun kw => (List.range (N + 1)).map fun c => ixLabel P (i.withKey key) kw c)) = true) fun key _ h => ?_).trans
      (le_of_eq ?_)
    · simp only [same2, Bool.not_eq_true', decide_eq_false_iff_not]
      exact fun hn => h (apart_of_nodup hn)
    · rw [prob]
      congr 2; funext key
      rw [keysAttack, play_askAll_real]
      simp only [label_derived L, List.map_map, List.flatMap_map, tagsOf, Function.comp_def, Bool.decide_eq_true]
  have h2 : (keysAttack P K N).play kdfRandom [] = mixed P N 0 K.length := by
    rw [keysAttack, play_askAll_random _ (hK.map fun a b h => (Prod.mk.inj h).2) _ _ fun _ _ => rfl]
    simp only [mixed, List.length_map, Nat.zero_mul, reel, PMF.pure_bind, List.map_nil, List.append_nil]
    congr 1; funext l
    congr 2
    rw [List.flatMap_map]
    congr 1; funext b
    rw [toKey, dif_pos b.2]
  have h3 := gap_chain (fun m => mixed P N m (K.length - m)) K.length
  have h4 : ∑ m ∈ Finset.range K.length, gap (mixed P N m (K.length - m)) (mixed P N (m + 1) (K.length - (m + 1))) =
      ∑ m ∈ Finset.range K.length, kdfGap P (tagsAttack P N m (K.length - (m + 1))) := by
    refine Finset.sum_congr rfl fun m hm => ?_
    rw [Finset.mem_range] at hm
    rw [← gap_mixed P hN, show K.length - (m + 1) + 1 = K.length - m by omega]
  rw [h4] at h3
  have h5 := chance_mixed P N K.length
  simp only [Nat.sub_zero, Nat.sub_self] at h3
  have h6 := le_abs_self (chance ((unif 32).bind fun key => (keysAttack P K N).play (kdfReal P key) ()) - chance ((keysAttack P K N).play kdfRandom []))
  have h7 := le_abs_self (chance (mixed P N 0 K.length) - chance (mixed P N K.length 0))
  rw [h2] at h6
  rw [gap] at h3
  rw [kdfGap, gap, h2]
  linarith

theorem asks_askAll (qs : List (Bytes × Bytes)) (g : List Bytes → Bool) : (askAll qs g).Asks qs.length := by
  induction qs generalizing g with
  | nil => trivial
  | cons q qs ih => exact fun r => ih _

theorem asks_tossAll {m : Nat} (n : Nat) (k : List (BytesN 32) → OAdv (Bytes × Bytes) fun _ => Bytes) (hk : ∀ l, (k l).Asks m) : (tossAll n k).Asks m := by
  induction n generalizing k with
  | zero => exact hk []
  | succ n ih =>
    cases m <;> exact fun b => ih _ fun l => hk _

/-- C115: the attacks ask for one key per keyword, and for one label per counter. -/
theorem C115_questions (P : Prims) (K : List GoString) (N a b : Nat) : (keysAttack P K N).Asks K.length ∧ (tagsAttack P N a b).Asks (N + 1) := by
  constructor
  · have := asks_askAll (K.map fun kw => (labelLabel, kw)) fun ks => same2 (ks.flatMap fun k => tagsOf P N (toKey k))
    rwa [List.length_map] at this
  · refine asks_tossAll _ _ fun ts => asks_tossAll _ _ fun l => ?_
    have := asks_askAll ((List.range (N + 1)).map counterAsk) fun r => same2 (ts.flatMap (tagsOf P N) ++ r ++ l.map Subtype.val)
    rwa [List.length_map, List.length_range] at this

/-- Up to `N` calls with keywords in `K` are made, one after the other, on an index without nodes, and do not give the results of a
map from keywords to lists. -/
def IndexFails (P : Prims) (i : SecureIndex) (K : List GoString) (N : Nat) : Prop :=
  ∃ (env : Env) (w : World) (fuel : Nat) (calls : List IxCall), NoFault env ∧ RandOk env ∧ (∀ x, w.store x dtNode = none) ∧ N < fuel ∧
    (∀ c ∈ calls, c.keyword ∈ K) ∧ calls.length ≤ N ∧
    ixCodeHist P i fuel env w calls ≠ (ixHist sanitize emptyIndex (ixAnnotate P i fuel env w calls)).map toOutcome

/-- C115: so C27 holds for a random key of the index, whatever the calls, which may depend on the key, but for these chances. -/
theorem C115_index {P : Prims} (L : P.Laws) (i : SecureIndex) (hi : IxIdp i) {K : List GoString} (hK : K.Nodup) {N : Nat} (hN : N < 2 ^ 64) :
    prob (unif 32) (fun key => IndexFails P (i.withKey key) K N) ≤
      kdfGap P (keysAttack P K N) + ∑ m ∈ Finset.range K.length, kdfGap P (tagsAttack P N m (K.length - (m + 1))) +
        ((K.length * (N + 1) : Nat) : ℝ) * ((K.length * (N + 1) : Nat) - 1) / 2 / 256 ^ 32 := by
  refine (prob_mono _ fun key _ h ha => ?_).trans (C115_labels L i hK hN)
  obtain ⟨env, w, fuel, calls, hf, hr, hw, hfuel, hc, hl, hne⟩ := h
  exact hne (C27_index_from L (i := i.withKey key) key.2 hf hr hi hN ha hfuel calls hc (by omega) (ixRel_empty hw)).1

/-- Some calls that never conflict are made concurrently, within `N` steps, on an index without nodes, and there is no order in which the
specification gives their results. -/
def IndexRaces (P : Prims) (i : SecureIndex) (who : GoString → Option Identity → Prop) (K : List GoString) (N : Nat) : Prop :=
  ∃ (env : Env) (w : World) (fuel : Nat) (calls : List IxCall) (sch : List Nat), NoFault env ∧ RandOk env ∧ (∀ x, w.store x dtNode = none) ∧ N < fuel ∧
    (∀ c ∈ calls, c.keyword ∈ K) ∧ sch.length ≤ N ∧
    (∀ n, n < sch.length → ∀ b j c d, b ≠ j → calls[b]? = some c → calls[j]? = some d →
      InProgress env sch w (calls.map (ixProg P i fuel)) n b → InProgress env sch w (calls.map (ixProg P i fuel)) n j → ¬ IxConflict True c d) ∧
    ¬∃ l x', LinRun (fun j x o x' => ∃ c, calls[j]? = some c ∧ IxMove True who c x o x') l emptyIndex x' ∧ (l.map Prod.fst).Nodup ∧
      (∀ j o, (j, o) ∈ l → j ∈ sch) ∧
      ∀ n, ∃ l1 l2, l = l1 ++ l2 ∧ (∀ j o, (j, o) ∈ commits env (sch.take n) w (calls.map (ixProg P i fuel)) → (j, o) ∈ l1) ∧
        ∀ j o, (j, o) ∈ l1 → j ∈ sch.take n

/-- C115: and C83. -/
theorem C115_linearizable {P : Prims} (L : P.Laws) (i : SecureIndex) {who : GoString → Option Identity → Prop} (hi : IxTells i who) {K : List GoString}
    (hK : K.Nodup) {N : Nat} (hN : N < 2 ^ 64) :
    prob (unif 32) (fun key => IndexRaces P (i.withKey key) who K N) ≤
      kdfGap P (keysAttack P K N) + ∑ m ∈ Finset.range K.length, kdfGap P (tagsAttack P N m (K.length - (m + 1))) +
        ((K.length * (N + 1) : Nat) : ℝ) * ((K.length * (N + 1) : Nat) - 1) / 2 / 256 ^ 32 := by
  refine (prob_mono _ fun key _ h ha => ?_).trans (C115_labels L i hK hN)
  obtain ⟨env, w, fuel, calls, sch, hf, hr, hw, hfuel, hc, hl, hno, hne⟩ := h
  obtain ⟨l, x', h1, h2, h3, h4, -⟩ := C83_linearizable L (i := i.withKey key) key.2 True hf hr hi hN ha hfuel calls hc (ixRel_empty hw) sch (by omega) hno
  exact hne ⟨l, x', h1, h2, h3, h4⟩

/-! ## A case -/

/-- A sponge that gives nothing but zeros. -/
def emptyPrims : Prims := toyPrims.withSponge fun _ _ n => List.replicate n 0

theorem emptyLaws : emptyPrims.Laws := withSponge_laws toyLaws fun _ _ _ => List.length_replicate

/-- With it no two labels differ, and the attacks succeed. -/
theorem C115_case : prob (unif 32) (fun key => ¬Apart emptyPrims (toyIndex.withKey key) [[107], [108]] 5) = 1 ∧
    1 - 66 / 256 ^ 32 ≤ kdfGap emptyPrims (keysAttack emptyPrims [[107], [108]] 5) + ∑ m ∈ Finset.range 2, kdfGap emptyPrims (tagsAttack emptyPrims 5 m (2 - (m + 1))) := by
  have h1 : prob (unif 32) (fun key => ¬Apart emptyPrims (toyIndex.withKey key) [[107], [108]] 5) = 1 := by
    have : ∀ key, ¬Apart emptyPrims (toyIndex.withKey key) [[107], [108]] 5 := by
      intro key h
      have := (h [107] (by simp) [107] (by simp) 0 (by omega) 1 (by omega) rfl).2
      cases this
    simp [prob, this, chance]
  refine ⟨h1, ?_⟩
  have h := C115_labels emptyLaws toyIndex (K := [[107], [108]]) (by decide) (N := 5) (by decide)
  rw [h1] at h
  norm_num at h ⊢
  linarith

end D1
