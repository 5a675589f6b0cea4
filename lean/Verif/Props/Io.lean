import Verif.Model.Io
import Verif.Model.Standalone
import Verif.Spec.Map
import Verif.Proofs.Encoding
/-!
# Properties of io/: C58, C59, C60, C61, C64
-/
namespace D1
attribute [-simp] UInt8.ofNat_add UInt8.ofNat_mul UInt8.ofNat_sub
open Spec

/-- A call on a provider and what the caller sees. -/
def Provider.call {σ : Type} (p : Provider σ) (s : σ) : IoCall → IoResult × σ
  | .put id dt d => match p.put id dt d s with
    | (.ok (), s') => (.done, s')
    | (.error e, s') => (.error e, s')
  | .get id dt => match p.get id dt s with
    | (.ok d, s') => (.data d, s')
    | (.error e, s') => (.error e, s')
  | .update id dt d => match p.update id dt d s with
    | (.ok (), s') => (.done, s')
    | (.error e, s') => (.error e, s')
  | .delete id dt => match p.delete id dt s with
    | (.ok (), s') => (.done, s')
    | (.error e, s') => (.error e, s')

/-- The results of a sequence of calls on a provider. -/
def Provider.hist {σ : Type} (p : Provider σ) (s : σ) : List IoCall → List IoResult
  | [] => []
  | c :: r => (p.call s c).1 :: p.hist (p.call s c).2 r

/-! ## C60 -/

/-- C60: storage keys of the in-memory provider do not collide. -/
theorem C60_memKey_inj (id id' : Bytes) (dt dt' : DataType) (h : memKey id dt = memKey id' dt') : id = id' ∧ dt = dt' := by
  have key : ∀ (a b c d : Bytes), (58 : UInt8) ∉ a → (58 : UInt8) ∉ b → a ++ [58] ++ c = b ++ [58] ++ d → a = b ∧ c = d := by
    intro a
    induction a with
    | nil =>
      intro b c d _ hb h
      cases b with
      | nil => simpa using h
      | cons x b => simp at h hb; exact absurd h.1 hb.1
    | cons y a ih =>
      intro b c d ha hb h
      cases b with
      | nil => simp at h ha; exact absurd h.1.symm ha.1
      | cons x b =>
        simp only [List.cons_append, List.cons.injEq] at h
        simp only [List.mem_cons, not_or] at ha hb
        obtain ⟨e1, e2⟩ := ih b c d ha.2 hb.2 h.2
        exact ⟨by rw [h.1, e1], e2⟩
  obtain ⟨h1, h2⟩ := key _ _ _ _ (hexEnc_not_colon id) (hexEnc_not_colon id') h
  exact ⟨hexEnc_inj h1, UInt16.toNat_inj.mp (decEnc_inj h2)⟩

theorem dtBytes_inj {dt dt' : DataType} (h : dtBytes dt = dtBytes dt') : dt = dt' := by
  simp only [dtBytes, List.cons.injEq, and_true] at h
  apply UInt16.toNat_inj.mp
  have h1 := congrArg UInt8.toNat h.1
  have h2 := congrArg UInt8.toNat h.2
  have l1 := dt.toNat_lt
  have l2 := dt'.toNat_lt
  simp only [UInt8.toNat_ofNat'] at h1 h2
  omega

/-- C60: storage keys of the Bolt provider do not collide. -/
theorem C60_boltKey_inj (id id' : Bytes) (dt dt' : DataType) (h : boltKey id dt = boltKey id' dt') : id = id' ∧ dt = dt' := by
  obtain ⟨h1, h2⟩ := List.append_inj' h rfl
  exact ⟨h1, dtBytes_inj h2⟩

/-- C60: the data types of D1, the index and Standalone are distinct. -/
theorem C60_dataTypes : [dtObject, dtAccess, dtNode, dtUser, dtGroup].Nodup := by decide

example : memKey [0xAB, 1] 12 = "ab01:12".toUTF8.data.toList ∧ boltKey [9] 258 = [9, 2, 1, 0] := by decide

/-! ## C58 -/

theorem find_cons (m : AList) (id : Bytes) (dt : DataType) (v : Option Bytes) (id' : Bytes) (dt' : DataType) :
    AList.find (((id, dt), v) :: m) id' dt' = if id = id' ∧ dt = dt' then v else m.find id' dt' := rfl

theorem kv_set_key {key : Bytes → DataType → Bytes} (hinj : ∀ id id' dt dt', key id dt = key id' dt' → id = id' ∧ dt = dt')
    (s : KV) (m : AList) (hr : ∀ id dt, s (key id dt) = m.find id dt) (id : Bytes) (dt : DataType) (v : Option Bytes) :
    ∀ id' dt', (s.set (key id dt) v) (key id' dt') = AList.find (((id, dt), v) :: m) id' dt' := by
  intro id' dt'
  rw [find_cons, KV.set]
  by_cases h : id = id' ∧ dt = dt'
  · obtain ⟨rfl, rfl⟩ := h; simp
  · rw [if_neg h, if_neg, hr]
    intro e
    obtain ⟨e1, e2⟩ := hinj _ _ _ _ e
    exact h ⟨e1.symm, e2.symm⟩

theorem mem_call (s : KV) (m : AList) (hr : ∀ id dt, s (memKey id dt) = m.find id dt) (c : IoCall) :
    (memProvider.call s c).1 = (mapStep m c).1 ∧
      ∀ id dt, (memProvider.call s c).2 (memKey id dt) = (mapStep m c).2.find id dt := by
  have hset := kv_set_key C60_memKey_inj s m hr
  cases c with
  | put id dt d =>
    simp only [Provider.call, memProvider, mapStep, hr]
    cases h : m.find id dt with
    | none => exact ⟨rfl, hset id dt (some d)⟩
    | some x => exact ⟨rfl, hr⟩
  | get id dt =>
    simp only [Provider.call, memProvider, mapStep, hr]
    cases h : m.find id dt with
    | none => exact ⟨rfl, hr⟩
    | some x => exact ⟨rfl, hr⟩
  | update id dt d =>
    simp only [Provider.call, memProvider, mapStep, hr]
    cases h : m.find id dt with
    | none => exact ⟨rfl, hr⟩
    | some x => exact ⟨rfl, hset id dt (some d)⟩
  | delete id dt => exact ⟨rfl, hset id dt none⟩

/-- C58: every sequence of calls on a fresh `Mem` gives the results of a plain map. -/
theorem C58_mem_is_map (calls : List IoCall) : memProvider.hist (fun _ => none) calls = mapHist [] calls := by
  have : ∀ (s : KV) (m : AList), (∀ id dt, s (memKey id dt) = m.find id dt) → memProvider.hist s calls = mapHist m calls := by
    induction calls with
    | nil => intros; rfl
    | cons c r ih =>
      intro s m hr
      obtain ⟨h1, h2⟩ := mem_call s m hr c
      simp only [Provider.hist, mapHist, h1]
      rw [ih _ _ h2]
  exact this _ _ (fun _ _ => rfl)

/-- The abstract store that the other properties are stated over is the plain map, too. -/
theorem C58_store_is_map (calls : List IoCall) : refProvider.hist (fun _ _ => none) calls = mapHist [] calls := by
  have : ∀ (s : Store) (m : AList), (∀ id dt, s id dt = m.find id dt) → refProvider.hist s calls = mapHist m calls := by
    induction calls with
    | nil => intros; rfl
    | cons c r ih =>
      intro s m hr
      have hset : ∀ id dt v id' dt', (s.set id dt v) id' dt' = AList.find (((id, dt), v) :: m) id' dt' := by
        intro id dt v id' dt'
        rw [find_cons, Store.set, hr]
        by_cases h : id = id' ∧ dt = dt'
        · obtain ⟨rfl, rfl⟩ := h; simp
        · rw [if_neg h, if_neg]; exact fun e => h ⟨e.1.symm, e.2.symm⟩
      simp only [Provider.hist, mapHist]
      have : (refProvider.call s c).1 = (mapStep m c).1 ∧
          ∀ id dt, (refProvider.call s c).2 id dt = (mapStep m c).2.find id dt := by
        cases c with
        | put id dt d =>
          simp only [Provider.call, refProvider, mapStep, hr]
          cases h : m.find id dt with
          | none => exact ⟨rfl, hset id dt (some d)⟩
          | some x => exact ⟨rfl, hr⟩
        | get id dt =>
          simp only [Provider.call, refProvider, mapStep, hr]
          cases h : m.find id dt with
          | none => exact ⟨rfl, hr⟩
          | some x => exact ⟨rfl, hr⟩
        | update id dt d =>
          simp only [Provider.call, refProvider, mapStep, hr]
          cases h : m.find id dt with
          | none => exact ⟨rfl, hr⟩
          | some x => exact ⟨rfl, hset id dt (some d)⟩
        | delete id dt => exact ⟨rfl, hset id dt none⟩
      rw [this.1, ih _ _ this.2]
  exact this _ _ (fun _ _ => rfl)

/-- The reference provider is what programs run against. -/
theorem C58_store_exec (s : Store) (rnd : (n : Nat) → Option (BytesN n)) (clk : GoTime) (id : Bytes) (dt : DataType) (d : Bytes) :
    s.exec rnd clk (.put id dt d) = refProvider.put id dt d s ∧ s.exec rnd clk (.get id dt) = refProvider.get id dt s ∧
    s.exec rnd clk (.update id dt d) = refProvider.update id dt d s ∧
    s.exec rnd clk (.delete id dt) = refProvider.delete id dt s := ⟨rfl, rfl, rfl, rfl⟩

example : mapHist [] [.put [1] 2 [], .put [1] 2 [5], .get [1] 2, .update [1] 2 [6], .get [1] 2, .delete [1] 2, .get [1] 2,
    .delete [1] 2, .update [1] 2 [7]] = [.done, .error .alreadyExists, .data [], .done, .data [6], .done, .error .notFound,
    .done, .error .notFound] := by decide

/-! ## C59

Full statement: `boltProvider.hist (fun _ => none) calls = mapHist [] calls` for all `calls`. -/

/-- Calls within the limits of Bolt, with data that is not empty. -/
def BoltOk : IoCall → Prop
  | .put id _ d | .update id _ d => id.length + 3 ≤ 32768 ∧ d.length ≤ 2 ^ 31 - 2 ∧ d ≠ []
  | _ => True

/-- C59, the part that holds: calls with non-empty data within Bolt's size limits. -/
theorem C59_bolt_is_map_partial (calls : List IoCall) (hok : ∀ c ∈ calls, BoltOk c) :
    boltProvider.hist (fun _ => none) calls = mapHist [] calls := by
  have hput : ∀ (id : Bytes) (dt : DataType) (d : Bytes) (s : KV), id.length + 3 ≤ 32768 → d.length ≤ 2 ^ 31 - 2 →
      bucketPut (boltKey id dt) d s = (.ok (), s.set (boltKey id dt) (some d)) := by
    intro id dt d s h1 h2
    have e1 : boltMaxKey = 32768 := rfl
    have e2 : boltMaxValue = 2 ^ 31 - 2 := rfl
    have e3 : (boltKey id dt).length = id.length + 3 := by simp [boltKey, dtBytes]
    unfold bucketPut
    rw [if_neg (by omega), if_neg (by omega)]
  have : ∀ (s : KV) (m : AList), (∀ id dt, s (boltKey id dt) = m.find id dt) → (∀ id dt, m.find id dt ≠ some []) →
      boltProvider.hist s calls = mapHist m calls := by
    induction calls with
    | nil => intros; rfl
    | cons c r ih =>
      intro s m hr hne
      have hset := kv_set_key C60_boltKey_inj s m hr
      have hne' : ∀ id dt v, v ≠ some [] → ∀ id' dt', AList.find (((id, dt), v) :: m) id' dt' ≠ some [] := by
        intro id dt v hv id' dt'
        rw [find_cons]
        split
        · exact hv
        · exact hne _ _
      have hc := hok c (by simp)
      simp only [Provider.hist, mapHist]
      have hstep : (boltProvider.call s c).1 = (mapStep m c).1 ∧
          (∀ id dt, (boltProvider.call s c).2 (boltKey id dt) = (mapStep m c).2.find id dt) ∧
          ∀ id dt, (mapStep m c).2.find id dt ≠ some [] := by
        cases c with
        | put id dt d =>
          simp only [Provider.call, boltProvider, mapStep, hr]
          cases h : m.find id dt with
          | none =>
            simp only [hput id dt d s hc.1 hc.2.1]
            exact ⟨rfl, hset id dt (some d), hne' id dt (some d) (by simpa using hc.2.2)⟩
          | some x => exact ⟨rfl, hr, hne⟩
        | get id dt =>
          simp only [Provider.call, boltProvider, mapStep, hr]
          cases h : m.find id dt with
          | none => exact ⟨rfl, hr, hne⟩
          | some x =>
            cases x with
            | nil => exact absurd h (hne id dt)
            | cons a x => exact ⟨rfl, hr, hne⟩
        | update id dt d =>
          simp only [Provider.call, boltProvider, mapStep, hr]
          cases h : m.find id dt with
          | none => exact ⟨rfl, hr, hne⟩
          | some x =>
            simp only [hput id dt d s hc.1 hc.2.1]
            exact ⟨rfl, hset id dt (some d), hne' id dt (some d) (by simpa using hc.2.2)⟩
        | delete id dt => exact ⟨rfl, hset id dt none, hne' id dt none (by simp)⟩
      rw [hstep.1, ih (fun c hc => hok c (by simp [hc])) _ _ hstep.2.1 hstep.2.2]
  exact this _ _ (fun _ _ => rfl) (fun _ _ => by simp [AList.find])

/-- C59, refutation: data stored as the empty string cannot be read back. -/
theorem C59_false (id : Bytes) (dt : DataType) (h : id.length + 3 ≤ 32768) :
    boltProvider.hist (fun _ => none) [.put id dt [], .get id dt] = [.done, .error .notFound] ∧
    mapHist [] [.put id dt [], .get id dt] = [.done, .data []] := by
  have hk : (boltKey id dt).length = id.length + 3 := by simp [boltKey, dtBytes]
  have hm : boltMaxKey = 32768 := rfl
  constructor
  · have : bucketPut (boltKey id dt) [] (fun _ => none) = (.ok (), KV.set (fun _ => none) (boltKey id dt) (some [])) := by
      unfold bucketPut
      rw [if_neg (by omega), if_neg (by simp)]
    simp only [Provider.hist, Provider.call, boltProvider, this, KV.set, if_true, Option.getD_some]
  · simp [mapHist, mapStep, AList.find]

example : ∀ c ∈ [IoCall.put [1] 2 [5], .get [1] 2, .delete [1] 2], BoltOk c := by
  intro c hc
  simp at hc
  rcases hc with rfl | rfl | rfl <;> simp [BoltOk]

/-! ## C61

Full statement: of several concurrent `Put`s for one unused key exactly one succeeds, and its data is stored.  True of
Bolt, where every `Put` is one transaction; false of `Mem`. -/

/-- Several goroutines over one `sync.Map`, scheduled in the given order. -/
def schedMap {α : Type} : List Nat → List (MapProg α) × KV → List (MapProg α) × KV
  | [], s => s
  | i :: r, (ts, m) => match ts[i]? with
    | none => schedMap r (ts, m)
    | some p => schedMap r (ts.set i (p.step m).1, (p.step m).2)

/-- C61 for Bolt: `Put`s for one unused key, in whatever order the transactions take place: the first one succeeds, all
others are refused, and the data of the first is stored. -/
theorem C61_bolt (id : Bytes) (dt : DataType) (d : Bytes) (ds : List Bytes) (s : KV) (h0 : s (boltKey id dt) = none)
    (h1 : id.length + 3 ≤ 32768) (h2 : d.length ≤ 2 ^ 31 - 2) :
    boltProvider.hist s ((d :: ds).map (IoCall.put id dt)) = .done :: ds.map (fun _ => .error .alreadyExists) ∧
    ((d :: ds).foldl (fun s d => (boltProvider.call s (.put id dt d)).2) s) (boltKey id dt) = some d := by
  have e1 : boltMaxKey = 32768 := rfl
  have e2 : boltMaxValue = 2 ^ 31 - 2 := rfl
  have e3 : (boltKey id dt).length = id.length + 3 := by simp [boltKey, dtBytes]
  have hput : bucketPut (boltKey id dt) d s = (.ok (), s.set (boltKey id dt) (some d)) := by
    unfold bucketPut
    rw [if_neg (by omega), if_neg (by omega)]
  have hfirst : boltProvider.call s (.put id dt d) = (.done, s.set (boltKey id dt) (some d)) := by
    simp only [Provider.call, boltProvider, h0, hput]
  have hrest : ∀ (ds : List Bytes) (s : KV), s (boltKey id dt) = some d →
      boltProvider.hist s (ds.map (IoCall.put id dt)) = ds.map (fun _ => .error .alreadyExists) ∧
      (ds.foldl (fun s d => (boltProvider.call s (.put id dt d)).2) s) (boltKey id dt) = some d := by
    intro ds
    induction ds with
    | nil => intro s h; exact ⟨rfl, h⟩
    | cons x ds ih =>
      intro s h
      have hx : boltProvider.call s (.put id dt x) = (.error .alreadyExists, s) := by
        simp only [Provider.call, boltProvider, h]
      simp only [List.map_cons, Provider.hist, List.foldl_cons, hx]
      exact ⟨by rw [(ih s h).1], (ih s h).2⟩
  have := hrest ds (s.set (boltKey id dt) (some d)) (by simp [KV.set])
  simp only [List.map_cons, Provider.hist, List.foldl_cons, hfirst]
  exact ⟨by rw [this.1], this.2⟩

/-- The states that a `Mem.Put` thread goes through. -/
inductive PutState (id : Bytes) (dt : DataType) (d : Bytes) : MapProg (Except IoErr Unit) → Prop
  | start : PutState id dt d (memPut id dt d)
  | pending : PutState id dt d (.store (memKey id dt) d (.ret (.ok ())))
  | done : PutState id dt d (.ret (.ok ()))
  | refused : PutState id dt d (.ret (.error .alreadyExists))

/-- C61 for `Mem`, the part that holds, under every interleaving: what is stored is the data of a `Put` that succeeded, and
when all have finished at least one has succeeded.  Missing: at most one succeeds (false, `C61_false`). -/
theorem C61_mem_put_partial (id : Bytes) (dt : DataType) (ds : List Bytes) (hne : ds ≠ []) (s : KV)
    (h0 : s (memKey id dt) = none) (order : List Nat) (ts : List (MapProg (Except IoErr Unit))) (s' : KV)
    (h : schedMap order (ds.map (memPut id dt), s) = (ts, s')) :
    (∀ v, s' (memKey id dt) = some v → ∃ i : Nat, ts[i]? = some (.ret (.ok ())) ∧ ds[i]? = some v) ∧
    ((∀ p ∈ ts, ∃ r, p = .ret r) → ∃ i : Nat, ts[i]? = some (.ret (.ok ()))) := by
  let Inv : List (MapProg (Except IoErr Unit)) × KV → Prop := fun st =>
    st.1.length = ds.length ∧ (∀ (i : Nat) p d, st.1[i]? = some p → ds[i]? = some d → PutState id dt d p) ∧
    (∀ v, st.2 (memKey id dt) = some v → ∃ i : Nat, st.1[i]? = some (.ret (.ok ())) ∧ ds[i]? = some v) ∧
    (st.2 (memKey id dt) = none → ∀ (i : Nat) r, st.1[i]? ≠ some (.ret r))
  have hstep : ∀ (order : List Nat) st, Inv st → Inv (schedMap order st) := by
    intro order
    induction order with
    | nil => intro st h; exact h
    | cons i r ih =>
      rintro ⟨ts, m⟩ ⟨hl, hp, hv, hn⟩
      simp only [schedMap]
      cases hi : ts[i]? with
      | none => exact ih _ ⟨hl, hp, hv, hn⟩
      | some p =>
        apply ih
        have hilt : i < ts.length := by
          rcases Nat.lt_or_ge i ts.length with h | h
          · exact h
          · simp [h] at hi
        obtain ⟨d, hd⟩ : ∃ d, ds[i]? = some d := ⟨ds[i]'(by simp only at hl; omega), by simp⟩
        have hps := hp i p d hi hd
        simp only at hl hp hv hn
        have getset : ∀ (q : MapProg (Except IoErr Unit)) (j : Nat), (ts.set i q)[j]? = if i = j then some q else ts[j]? := by
          intro q j
          rw [List.getElem?_set]
          split
          · rename_i e; subst e; simp [hilt]
          · rfl
        have keep : ∀ q, PutState id dt d q → ∀ (j : Nat) p' d', (ts.set i q)[j]? = some p' → ds[j]? = some d' →
            PutState id dt d' p' := by
          intro q hq j p' d' hj hdj
          rw [getset] at hj
          split at hj
          · rename_i e; subst e; cases hj; rw [hd] at hdj; cases hdj; exact hq
          · exact hp j p' d' hj hdj
        cases hps with
        | start =>
          cases hm : m (memKey id dt) with
          | none =>
            simp only [memPut, MapProg.step, hm]
            refine ⟨by simpa using hl, keep _ .pending, fun v e => ?_, fun _ j r hj => ?_⟩
            · simp only [hm] at e; cases e
            · simp only [getset] at hj
              split at hj
              · cases hj
              · exact hn hm j r hj
          | some x =>
            simp only [memPut, MapProg.step, hm]
            refine ⟨by simpa using hl, keep _ .refused, fun v e => ?_, fun e => ?_⟩
            · obtain ⟨j, hj, hdj⟩ := hv v e
              refine ⟨j, ?_, hdj⟩
              simp only [getset]
              split
              · rename_i e'; subst e'; rw [hi] at hj; cases hj
              · exact hj
            · simp only [hm] at e; cases e
        | pending =>
          simp only [MapProg.step]
          refine ⟨by simpa using hl, keep _ .done, fun v e => ?_, fun e => ?_⟩
          · simp only [KV.set, if_true, Option.some.injEq] at e
            subst e
            exact ⟨i, by simp [getset], hd⟩
          · simp [KV.set] at e
        | done =>
          simp only [MapProg.step]
          have : ts.set i (.ret (.ok ())) = ts := by
            apply List.ext_getElem?
            intro j
            rw [getset]; split
            · rename_i e; subst e; exact hi.symm
            · rfl
          rw [this]
          exact ⟨hl, hp, hv, hn⟩
        | refused =>
          simp only [MapProg.step]
          have : ts.set i (.ret (.error .alreadyExists)) = ts := by
            apply List.ext_getElem?
            intro j
            rw [getset]; split
            · rename_i e; subst e; exact hi.symm
            · rfl
          rw [this]
          exact ⟨hl, hp, hv, hn⟩
  have hinit : Inv (ds.map (memPut id dt), s) := by
    refine ⟨by simp, ?_, fun v e => ?_, fun _ i r hi => ?_⟩
    · intro i p d hi hd
      simp only [List.getElem?_map, hd, Option.map_some, Option.some.injEq] at hi
      subst hi
      exact .start
    · simp only at e; rw [h0] at e; cases e
    · simp only [List.getElem?_map] at hi
      cases hd : ds[i]? <;> rw [hd] at hi <;> simp [memPut] at hi
  have hfin := hstep order _ hinit
  rw [h] at hfin
  obtain ⟨hl, hp, hv, hn⟩ := hfin
  refine ⟨hv, fun hall => ?_⟩
  cases hm : s' (memKey id dt) with
  | some v => obtain ⟨i, hi, _⟩ := hv v hm; exact ⟨i, hi⟩
  | none =>
    have hlen : 0 < ts.length := by
      simp only at hl
      rw [hl]
      exact List.length_pos_iff.mpr hne
    obtain ⟨r, hr⟩ := hall ts[0] (List.getElem_mem hlen)
    exact absurd (by rw [List.getElem?_eq_getElem hlen, hr]) (hn hm 0 r)

/-- C61, refutation for `Mem`: two `Put`s that both `Load` before either `Store`s both succeed, and the data of the first is
lost. -/
theorem C61_false (id : Bytes) (dt : DataType) (d1 d2 : Bytes) (s : KV) (h0 : s (memKey id dt) = none) :
    ∃ s', schedMap [0, 1, 0, 1] ([memPut id dt d1, memPut id dt d2], s) = ([.ret (.ok ()), .ret (.ok ())], s') ∧
      s' (memKey id dt) = some d2 := by
  refine ⟨(s.set (memKey id dt) (some d1)).set (memKey id dt) (some d2), ?_, by simp [KV.set]⟩
  simp [schedMap, memPut, MapProg.step, h0]

example : (fun _ => none : KV) (memKey [1] 0) = none ∧ ([[1], [2]] : List Bytes) ≠ [] := ⟨rfl, by simp⟩

/-! ## C64 -/

/-- C64: a default proxy returns and does exactly what the wrapped provider returns and does, for every call and
sequence of calls. -/
theorem C64_proxy {σ : Type} (p : Provider σ) (s : σ) :
    (∀ id dt d, (newProxy p).put id dt d s = p.put id dt d s) ∧ (∀ id dt, (newProxy p).get id dt s = p.get id dt s) ∧
    (∀ id dt d, (newProxy p).update id dt d s = p.update id dt d s) ∧
    (∀ id dt, (newProxy p).delete id dt s = p.delete id dt s) ∧
    ∀ calls, (newProxy p).hist s calls = p.hist s calls := by
  refine ⟨fun _ _ _ => rfl, fun _ _ => rfl, fun _ _ _ => rfl, fun _ _ => rfl, fun calls => rfl⟩

example : (newProxy memProvider).hist (fun _ => none) [.put [1] 2 [3], .get [1] 2] = [.done, .data [3]] := by
  rw [(C64_proxy memProvider _).2.2.2.2, C58_mem_is_map]; decide

end D1
