import Verif.Props.Leak
/-!
# Stored records are bound to their object: C13, C14

Any number of calls run concurrently against a provider that answers as it likes; calls may also be cut off anywhere.  A
history is the interleaved list of answered effects, each with the number of the call that made it.  `calls j` is call
number `j` and `proj j H` is what it did so far.

`Sealed H` are the sealings performed so far: wrapping key, drawn key, drawn nonce, associated data, sealed text
(`C13_writes_sealed` shows that everything the calls write comes from such sealings).  An attack is a pair
(wrapped key, ciphertext), obtained from records that the provider returned, which a cryptor accepts for some associated
data although it never produced that pair for that associated data: a forgery of the key wrapping or of AES-GCM.  Replaying
or moving genuine records is not an attack in this sense.
-/
namespace D1
open Spec Prog

/-- One use of `Cryptor.Encrypt`. -/
structure SealEv where
  kwp : Bytes
  key : BytesN 32
  nonce : BytesN 12
  aad : Bytes
  text : Bytes

abbrev evRand (n : Nat) (b : BytesN n) : Event := ⟨.rand n, (some b : Option (BytesN n))⟩
abbrev evGet (oid : Oid) (dt : DataType) (b : Bytes) : Event := ⟨.get oid.1 dt, (.ok b : Except IoErr Bytes)⟩

/-- What call number `j` did. -/
def proj (j : Nat) (H : List (Nat × Event)) : List Event := H.filterMap fun e => if e.1 = j then some e.2 else none

/-- The token was accepted and the call was let through to the object by the access record `bytes`, reading as `a`. -/
def Passed (P : Prims) (d : D1) (token : GoString) (s : Scope) (oid : Oid) (tr : List Event) (a : Access) : Prop :=
  ∃ trI i bytes, tr = trI ++ [evGet oid dtAccess bytes] ∧ Yields (d.idProvider token) trI (.ok i) ∧ scopeIn s i.scopes = true ∧
    Accepts P d oid bytes a ∧ Lists i s a

/-- Call `c`, having done `tr`, sealed object `o` for `oid` with this key and nonce. -/
def SealsObj (P : Prims) (d : D1) (c : Call) (tr : List Event) (oid : Oid) (o : Object) (k : BytesN 32) (n : BytesN 12) : Prop :=
  match c with
  | .encrypt t o' _ => o' = o ∧ ∃ trI i b, Yields (d.idProvider t) trI (.ok i) ∧ oid = mkV4 b ∧
      trI ++ [evRand 16 b, evRand 32 k, evRand 12 n] <+: tr
  | .update t oid' o' => o' = o ∧ oid' = oid ∧ ∃ trG a, Passed P d t scopeUpdate oid trG a ∧
      trG ++ [evRand 32 k, evRand 12 n] <+: tr
  | _ => False

/-- Call `c`, having done `tr`, sealed access list `a` for `oid` with this key and nonce. -/
def SealsAcc (P : Prims) (d : D1) (c : Call) (tr : List Event) (oid : Oid) (a : Access) (k : BytesN 32) (n : BytesN 12) : Prop :=
  match c with
  | .encrypt t _ gs => ∃ trI i b k₀ n₀, Yields (d.idProvider t) trI (.ok i) ∧ oid = mkV4 b ∧
      a = firstAccess gs i (kwpBox P d.objectCryptor.kwp k₀.1) ∧
      trI ++ [evRand 16 b, evRand 32 k₀, evRand 12 n₀, evRand 32 k, evRand 12 n] <+: tr
  | .update t oid' _ => oid' = oid ∧ ∃ trG a₀ k₀ n₀, Passed P d t scopeUpdate oid trG a₀ ∧
      a = ⟨a₀.groups, some (kwpBox P d.objectCryptor.kwp k₀.1)⟩ ∧
      trG ++ [evRand 32 k₀, evRand 12 n₀, evRand 32 k, evRand 12 n] <+: tr
  | .addGroups t oid' gs => oid' = oid ∧ ∃ trG a₀, Passed P d t scopeModifyAccessGroups oid trG a₀ ∧
      a₀.addGroups gs = some a ∧ trG ++ [evRand 32 k, evRand 12 n] <+: tr
  | .removeGroups t oid' gs => oid' = oid ∧ ∃ trG a₀, Passed P d t scopeModifyAccessGroups oid trG a₀ ∧
      a = a₀.removeGroups gs ∧ trG ++ [evRand 32 k, evRand 12 n] <+: tr
  | _ => False

/-- The sealing of an object. -/
def objEv (d : D1) (oid : Oid) (o : Object) (k : BytesN 32) (n : BytesN 12) : SealEv :=
  ⟨d.objectCryptor.kwp, k, n, (objectAad oid o.associatedData).render, (J.ofBytes o.plaintext).render⟩

/-- The sealing of an access list. -/
def accEv (d : D1) (oid : Oid) (a : Access) (k : BytesN 32) (n : BytesN 12) : SealEv :=
  ⟨d.accessCryptor.kwp, k, n, (J.ofBytes (some oid.1)).render, a.toJ.render⟩

/-- The sealings performed in a history. -/
def Sealed (P : Prims) (d : D1) (calls : Nat → Call) (H : List (Nat × Event)) (ev : SealEv) : Prop :=
  ∃ j oid k n, (∃ o, SealsObj P d (calls j) (proj j H) oid o k n ∧ ev = objEv d oid o k n) ∨
    ∃ a, SealsAcc P d (calls j) (proj j H) oid a k n ∧ ev = accEv d oid a k n

/-- The pair was output by the cryptor with wrapping key `kwp` for this associated data. -/
def Produced (P : Prims) (S : SealEv → Prop) (kwp aad w ct : Bytes) : Prop :=
  ∃ ev, S ev ∧ ev.kwp = kwp ∧ ev.aad = aad ∧ w = kwpBox P kwp ev.key.1 ∧ ct = gcmBox P ev.key.1 ev.nonce.1 aad ev.text

/-- The last thing in the history is the answer to a request for the access record of `oid`, the access cryptor accepts it
for `oid`, but never produced it for `oid`. -/
def ForgedAccess (P : Prims) (d : D1) (calls : Nat → Call) (H : List (Nat × Event)) : Prop :=
  ∃ j H' oid bytes sa a, H = H' ++ [(j, evGet oid dtAccess bytes)] ∧ (P.unmarshal bytes).bind (SealedAccess.ofJ P) = some sa ∧
    d.accessCryptor.decrypt P Access.ofJ (J.ofBytes (some oid.1)) sa.wrappedKey.bytes sa.ciphertext.bytes = .ok a ∧
    ¬ Produced P (Sealed P d calls H) d.accessCryptor.kwp (J.ofBytes (some oid.1)).render sa.wrappedKey.bytes sa.ciphertext.bytes

/-- The last thing in the history is the answer to a request for the object record of `oid`; the record decrypts under a key
that an `Encrypt` or `Update` drew for this very object; but the record is not a ciphertext made with that key, for this ID
and this associated data. -/
def ForgedObject (P : Prims) (d : D1) (calls : Nat → Call) (H : List (Nat × Event)) : Prop :=
  ∃ j H' oid bytes so p, H = H' ++ [(j, evGet oid dtObject bytes)] ∧ (P.unmarshal bytes).bind (SealedObject.ofJ P) = some so ∧
    ∃ j' o k n, SealsObj P d (calls j') (proj j' H) oid o k n ∧
      d.objectCryptor.decrypt P J.toBytes (objectAad oid so.associatedData) (kwpBox P d.objectCryptor.kwp k.1) so.ciphertext.bytes = .ok p ∧
      ¬ Produced P (Sealed P d calls H) d.objectCryptor.kwp (objectAad oid so.associatedData).render
        (kwpBox P d.objectCryptor.kwp k.1) so.ciphertext.bytes

/-- At some moment of the history the provider presented a forgery. -/
def Attack (P : Prims) (d : D1) (calls : Nat → Call) (H : List (Nat × Event)) : Prop :=
  ∃ H0, H0 <+: H ∧ (ForgedAccess P d calls H0 ∨ ForgedObject P d calls H0)

section
variable {P : Prims} {d : D1} {calls : Nat → Call}

theorem proj_append (j : Nat) (H H' : List (Nat × Event)) : proj j (H ++ H') = proj j H ++ proj j H' := by
  simp [proj]

theorem proj_prefix (j : Nat) {H H' : List (Nat × Event)} (h : H <+: H') : proj j H <+: proj j H' := by
  obtain ⟨t, rfl⟩ := h
  rw [proj_append]; exact List.prefix_append _ _

/-- The moment at which a call had just performed a given effect. -/
theorem proj_split {j : Nat} {H : List (Nat × Event)} {tr : List Event} {e : Event} (h : tr ++ [e] <+: proj j H) :
    ∃ H', H' ++ [(j, e)] <+: H ∧ proj j H' = tr := by
  induction H generalizing tr with
  | nil => simp [proj] at h
  | cons x H ih =>
    by_cases hx : x.1 = j
    · obtain ⟨x1, x2⟩ := x
      simp only at hx; subst hx
      have hp : proj x1 ((x1, x2) :: H) = x2 :: proj x1 H := by simp [proj]
      rw [hp] at h
      cases tr with
      | nil =>
        simp only [List.nil_append, List.cons_prefix_cons, List.nil_prefix, and_true] at h
        subst h
        exact ⟨[], by simp, rfl⟩
      | cons y tr =>
        simp only [List.cons_append, List.cons_prefix_cons] at h
        obtain ⟨rfl, h⟩ := h
        obtain ⟨H', h1, h2⟩ := ih h
        refine ⟨(x1, y) :: H', by simpa using h1, ?_⟩
        simp only [proj, List.filterMap_cons, if_true] at h2 ⊢
        rw [h2]
    · have hp : proj j (x :: H) = proj j H := by simp [proj, hx]
      rw [hp] at h
      obtain ⟨H', h1, h2⟩ := ih h
      refine ⟨x :: H', by simpa using h1, ?_⟩
      simp only [proj, List.filterMap_cons, if_neg hx] at h2 ⊢
      exact h2

theorem SealsObj.mono {c : Call} {tr tr' : List Event} {oid : Oid} {o : Object} {k : BytesN 32} {n : BytesN 12} (ht : tr <+: tr')
    (h : SealsObj P d c tr oid o k n) : SealsObj P d c tr' oid o k n := by
  cases c <;> simp only [SealsObj] at h ⊢
  · obtain ⟨h0, trI, i, b, h1, h2, h3⟩ := h
    exact ⟨h0, trI, i, b, h1, h2, h3.trans ht⟩
  · obtain ⟨h0, h00, trG, a, h1, h2⟩ := h
    exact ⟨h0, h00, trG, a, h1, h2.trans ht⟩

theorem Attack.mono {H H' : List (Nat × Event)} (h : H <+: H') (ha : Attack P d calls H) : Attack P d calls H' := by
  obtain ⟨H0, h0, h1⟩ := ha
  exact ⟨H0, h0.trans h, h1⟩

theorem Lists.groups {i : Identity} {s : Scope} {a : Access} (h : Lists i s a) : a.groups ≠ none := by
  obtain ⟨x, _, h2, _⟩ := h
  intro h
  rw [h] at h2
  cases h2

variable (L : P.Laws)
include L

/-- An accepted pair that was produced holds the text that was sealed. -/
theorem produced_text {S : SealEv → Prop} {α : Type} {c : Cryptor} {dec : J → Option α} {a : J} {w ct : Bytes} {v : α}
    (hd : c.decrypt P dec a w ct = .ok v) (hp : Produced P S c.kwp a.render w ct) :
    ∃ ev j, S ev ∧ ev.kwp = c.kwp ∧ ev.aad = a.render ∧ w = kwpBox P c.kwp ev.key.1 ∧ P.unmarshal ev.text = some j ∧ dec j = some v := by
  obtain ⟨key, nonce, p, j, h1, h2, h3, h4⟩ := (Cryptor.decrypt_ok_iff L c dec a w ct v).mp hd
  obtain ⟨ev, e1, e2, e3, e4, e5⟩ := hp
  have hk : key = ev.key := Subtype.ext (kwpBox_inj L c.kwp _ _ key.2 ev.key.2 (h1.symm.trans e4))
  subst hk
  rw [h2] at e5
  have hs : (P.gcmSeal ev.key.1 nonce.1 a.render p).length = (P.gcmSeal ev.key.1 ev.nonce.1 a.render ev.text).length := by
    have := congrArg List.length e5
    simp only [gcmBox, List.length_append] at this
    have h12 := nonce.2
    have h13 := ev.nonce.2
    omega
  obtain ⟨e6, e7⟩ := List.append_inj e5 hs
  have ho := L.gcm_open_seal ev.key.1 nonce.1 a.render p
  rw [e6, e7, L.gcm_open_seal] at ho
  cases ho
  exact ⟨ev, j, e1, e2, e3, e4, h3, h4⟩

/-- C14: an access record accepted for an object at a request made in the history was sealed, by one of the calls so far, for
that same object, and reads as what was sealed; or the provider presented a forgery.  (`a.groups ≠ none` holds for every record
that authorizes anybody; without it a sealed nil object could pass for an empty record if the object and access keys were
equal.) -/
theorem C14_access_bound {j : Nat} {H' : List (Nat × Event)} {oid : Oid} {bytes : Bytes} {a : Access}
    (ha : Accepts P d oid bytes a) (hg : a.groups ≠ none) :
    (∃ j' a' k n, SealsAcc P d (calls j') (proj j' (H' ++ [(j, evGet oid dtAccess bytes)])) oid a' k n ∧
      a = ⟨a'.groups.map sanList, a'.wrappedDEK⟩) ∨
    ForgedAccess P d calls (H' ++ [(j, evGet oid dtAccess bytes)]) := by
  obtain ⟨sa, h1, h2⟩ := ha
  by_cases hp : Produced P (Sealed P d calls (H' ++ [(j, evGet oid dtAccess bytes)])) d.accessCryptor.kwp
      (J.ofBytes (some oid.1)).render sa.wrappedKey.bytes sa.ciphertext.bytes
  · left
    obtain ⟨ev, jj, hS, hk, haad, _, hu, hdec⟩ := produced_text L h2 hp
    obtain ⟨j', oid', k, n, ⟨o, ho, rfl⟩ | ⟨a', ha', rfl⟩⟩ := hS
    · simp only [objEv, L.unmarshal_render, san_ofBytes, Option.some.injEq] at hu
      subst hu
      exfalso
      cases hpl : o.plaintext with
      | none =>
        rw [hpl] at hdec
        simp only [J.ofBytes, Access.ofJ, J.fields] at hdec
        cases hdec
        exact hg rfl
      | some p =>
        rw [hpl] at hdec
        simp [J.ofBytes, Access.ofJ, J.fields] at hdec
    · simp only [accEv, L.unmarshal_render, Option.some.injEq] at hu haad
      subst hu
      rw [Access.ofJ_toJ] at hdec
      cases hdec
      have := ofBytes_render_inj L haad
      simp only [Option.some.injEq] at this
      have := Subtype.ext this
      subst this
      exact ⟨j', a', k, n, ha', rfl⟩
  · exact .inr ⟨j, H', oid, bytes, sa, a, rfl, h1, h2, hp⟩

/-- The key recorded in a sealed access list was drawn for an object with that ID, by an `Encrypt` or `Update`; or the provider
presented a forgery before. -/
theorem C13_key_origin (H : List (Nat × Event)) {j : Nat} {oid : Oid} {a : Access} {k : BytesN 32} {n : BytesN 12}
    (h : SealsAcc P d (calls j) (proj j H) oid a k n) :
    (∃ j' o k' n', SealsObj P d (calls j') (proj j' H) oid o k' n' ∧ a.wrappedDEK = some (kwpBox P d.objectCryptor.kwp k'.1)) ∨
      Attack P d calls H := by
  induction hl : H.length using Nat.strongRecOn generalizing H j a k n with
  | ind m ih =>
  -- Copied from an accepted record.
  have copied : ∀ t s trG a₀ x y, Passed P d t s oid trG a₀ → trG ++ [x, y] <+: proj j H → a.wrappedDEK = a₀.wrappedDEK →
      (∃ j' o k' n', SealsObj P d (calls j') (proj j' H) oid o k' n' ∧ a.wrappedDEK = some (kwpBox P d.objectCryptor.kwp k'.1)) ∨
        Attack P d calls H := by
    rintro t s trG a₀ x y ⟨trI, i, bytes, rfl, _, _, hacc, hlist⟩ hpre hdek
    have hpre2 : trI ++ [evGet oid dtAccess bytes] <+: proj j H := (List.prefix_append _ _).trans hpre
    obtain ⟨H', hH', hproj⟩ := proj_split hpre2
    have hlt : (H' ++ [(j, evGet oid dtAccess bytes)]).length < m := by
      rcases Nat.lt_or_ge (H' ++ [(j, evGet oid dtAccess bytes)]).length m with h | h
      · exact h
      · exfalso
        have heq : H' ++ [(j, evGet oid dtAccess bytes)] = H := hH'.eq_of_length (by have := hH'.length_le; omega)
        rw [← heq, proj_append, hproj] at hpre
        have := hpre.length_le
        simp [proj] at this
    rcases C14_access_bound L (calls := calls) (j := j) (H' := H') hacc hlist.groups with ⟨j', a', k', n', h1, rfl⟩ | h1
    · rcases ih _ hlt _ h1 rfl with ⟨j2, o, k2, n2, h2, h3⟩ | h2
      · exact .inl ⟨j2, o, k2, n2, h2.mono (proj_prefix _ hH'), by rw [hdek]; exact h3⟩
      · exact .inr (h2.mono hH')
    · exact .inr ⟨_, hH', .inl h1⟩
  cases hc : calls j <;> rw [hc] at h <;> simp only [SealsAcc] at h
  case encrypt t o gs =>
    obtain ⟨trI, i, b, k₀, n₀, h1, h2, rfl, h4⟩ := h
    refine .inl ⟨j, o, k₀, n₀, ?_, rfl⟩
    rw [hc]
    exact ⟨rfl, trI, i, b, h1, h2, List.IsPrefix.trans (by simp) h4⟩
  case update t oid' o =>
    obtain ⟨rfl, trG, a₀, k₀, n₀, h1, rfl, h4⟩ := h
    refine .inl ⟨j, o, k₀, n₀, ?_, rfl⟩
    rw [hc]
    exact ⟨rfl, rfl, trG, a₀, h1, List.IsPrefix.trans (by simp) h4⟩
  case addGroups t oid' gs =>
    obtain ⟨rfl, trG, a₀, h1, h2, h4⟩ := h
    refine copied t _ trG a₀ _ _ h1 h4 ?_
    simp only [Access.addGroups, Option.map_eq_some_iff] at h2
    obtain ⟨g, _, rfl⟩ := h2
    rfl
  case removeGroups t oid' gs =>
    obtain ⟨rfl, trG, a₀, h1, rfl, h4⟩ := h
    exact copied t _ trG a₀ _ _ h1 h4 rfl

omit L in
/-- Exactly when `Decrypt` returns an object. -/
theorem yields_decrypt_ok {t : GoString} {oid : Oid} {tr : List Event} {o : Object} :
    Yields (d.decrypt P t oid) tr (.ok o) ↔ ∃ trG a bytes so, tr = trG ++ [evGet oid dtObject bytes] ∧
      Passed P d t scopeDecrypt oid trG a ∧ (P.unmarshal bytes).bind (SealedObject.ofJ P) = some so ∧
      d.objectCryptor.decrypt P J.toBytes (objectAad oid so.associatedData) a.wrappedDEK.bytes so.ciphertext.bytes = .ok o.plaintext ∧
      o.associatedData = so.associatedData := by
  rw [decrypt_eq, yields_bind_ok]
  simp only [yields_guardProg_ok, yields_bind_ok, getSealedObject, Prog.bind_eq, yields_ioGet]
  constructor
  · rintro ⟨trG, tr2, a, rfl, ⟨trI, i, b, h1, h2⟩, tr3, tr4, so, rfl, ⟨tr5, tr6, bb, rfl, ⟨b', rfl, hb⟩ | ⟨_, _, hb⟩, h4⟩, h5⟩ <;> cases hb
    cases hu : (P.unmarshal bb).bind (SealedObject.ofJ P) with
    | none => rw [hu] at h4; simp at h4
    | some so' =>
      rw [hu] at h4
      obtain ⟨rfl, h4⟩ := yields_ret.mp h4
      cases h4
      simp only [SealedObject.unseal] at h5
      cases hdec : d.objectCryptor.decrypt P J.toBytes (objectAad oid so'.associatedData) a.wrappedDEK.bytes so'.ciphertext.bytes with
      | error e => rw [hdec] at h5; simp at h5
      | ok p =>
        rw [hdec] at h5
        obtain ⟨rfl, h5⟩ := yields_ret.mp h5
        cases h5
        exact ⟨trG, a, bb, so', by simp, ⟨trI, i, b, h1, h2⟩, hu, hdec, rfl⟩
  · rintro ⟨trG, a, bb, so, rfl, ⟨trI, i, b, h1, h2⟩, hu, hdec, had⟩
    refine ⟨trG, _, a, rfl, ⟨trI, i, b, h1, h2⟩, [evGet oid dtObject bb], [], { so with oid := oid }, by simp,
      ⟨[evGet oid dtObject bb], [], bb, by simp, .inl ⟨bb, rfl, rfl⟩, ?_⟩, ?_⟩
    · rw [hu]; exact .ret _
    · simp only [SealedObject.unseal, hdec]
      obtain ⟨p, q⟩ := o
      simp only at had
      subst had
      exact .ret _

/-- C13: when call number `i` is a `Decrypt` of `oid` that returned an object, then some call so far was an `Encrypt` that drew
`oid` as its ID or an `Update` of `oid`, and was given exactly that plaintext and (as bytes) exactly that associated data; or
the provider presented a forgery. -/
theorem C13_decrypt_authentic {H : List (Nat × Event)} {i : Nat} {t : GoString} {oid : Oid} {o : Object}
    (h : Yields (d.decrypt P t oid) (proj i H) (.ok o)) :
    (∃ j o' k n, SealsObj P d (calls j) (proj j H) oid o' k n ∧ o'.plaintext = o.plaintext ∧
      o'.associatedData.bytes = o.associatedData.bytes) ∨ Attack P d calls H := by
  obtain ⟨trG, a, bytes, so, htr, ⟨trI, id, ab, rfl, _, _, hacc, hlist⟩, hu, hdec, had⟩ := yields_decrypt_ok.mp h
  have hp1 : trI ++ [evGet oid dtAccess ab] <+: proj i H := by rw [htr]; exact List.prefix_append _ _
  obtain ⟨H1, hH1, hproj1⟩ := proj_split hp1
  have hp2 : (trI ++ [evGet oid dtAccess ab]) ++ [evGet oid dtObject bytes] <+: proj i H := by rw [htr]; exact List.prefix_rfl
  obtain ⟨H2, hH2, hproj2⟩ := proj_split hp2
  -- The access record was there before the object record.
  have hH12 : H1 ++ [(i, evGet oid dtAccess ab)] <+: H2 ++ [(i, evGet oid dtObject bytes)] := by
    rcases List.prefix_or_prefix_of_prefix hH1 hH2 with h | h
    · exact h
    · exfalso
      have := (proj_prefix i h).length_le
      rw [proj_append, proj_append, hproj1, hproj2] at this
      simp [proj] at this
  rcases C14_access_bound L (calls := calls) (j := i) (H' := H1) hacc hlist.groups with ⟨j', a', k', n', h1, rfl⟩ | h1
  · rcases C13_key_origin L _ h1 with ⟨j2, o2, k2, n2, h2, h3⟩ | h2
    · simp only at hdec
      rw [h3] at hdec
      have h2' := h2.mono (proj_prefix j2 hH12)
      by_cases hp : Produced P (Sealed P d calls (H2 ++ [(i, evGet oid dtObject bytes)])) d.objectCryptor.kwp
          (objectAad oid so.associatedData).render (kwpBox P d.objectCryptor.kwp k2.1) so.ciphertext.bytes
      · left
        obtain ⟨ev, jj, hS, hk, haad, _, hu2, hdec2⟩ := produced_text L hdec hp
        obtain ⟨j3, oid3, k3, n3, ⟨o3, ho3, rfl⟩ | ⟨a3, ha3, rfl⟩⟩ := hS
        · simp only [objEv] at haad hu2
          rw [L.unmarshal_render, san_ofBytes, Option.some.injEq] at hu2
          subst hu2
          rw [toBytes_ofBytes, Option.some.injEq] at hdec2
          obtain ⟨rfl, hb⟩ := objectAad_inj L haad
          exact ⟨j3, o3, k3, n3, ho3.mono (proj_prefix j3 hH2), hdec2, by rw [had]; exact hb⟩
        · exfalso
          simp only [accEv, L.unmarshal_render, Option.some.injEq] at hu2
          subst hu2
          simp [Access.toJ, J.san, J.toBytes] at hdec2
      · exact .inr ⟨_, hH2, .inr ⟨i, H2, oid, bytes, so, o.plaintext, rfl, hu, j2, o2, k2, n2, h2', hdec, hp⟩⟩
    · exact .inr (h2.mono hH1)
  · exact .inr ⟨_, hH1, .inl h1⟩

/-! ## Everything written comes from a sealing -/

omit L in
/-- What a call has to do before it writes: `R tr e` holds for every write `e` performed after `tr`. -/
def Emits {α : Type} : Prog α → (List Event → Eff → Prop) → Prop
  | .op e k, R => (e.isWrite = true → R [] e) ∧ ∀ r, Emits (k r) (fun tr e' => R (⟨e, r⟩ :: tr) e')
  | _, _ => True

omit L in
theorem Emits.sound {α : Type} {p : Prog α} {R : List Event → Eff → Prop} (h : Emits p R) {tr pre post : List Event}
    {out : Outcome α} {ev : Event} (hy : Yields p tr out) (ht : tr = pre ++ ev :: post) (hw : ev.1.isWrite = true) : R pre ev.1 := by
  induction p generalizing R tr pre with
  | op e k ih =>
    obtain ⟨r, tr', rfl, hy'⟩ := yields_op.mp hy
    cases pre with
    | nil =>
      simp only [List.nil_append, List.cons.injEq] at ht
      obtain ⟨rfl, rfl⟩ := ht
      exact h.1 hw
    | cons x pre =>
      simp only [List.cons_append, List.cons.injEq] at ht
      obtain ⟨rfl, rfl⟩ := ht
      exact ih r (h.2 r) hy' rfl
  | ret a => obtain ⟨rfl, _⟩ := yields_ret.mp hy; simp at ht
  | err a => obtain ⟨rfl, _⟩ := yields_err.mp hy; simp at ht
  | panic => obtain ⟨rfl, _⟩ := yields_panic.mp hy; simp at ht
  | diverge => obtain ⟨rfl, _⟩ := yields_diverge.mp hy; simp at ht

omit L in
theorem emits_bind {α β : Type} {p : Prog α} {k : α → Prog β} {R : List Event → Eff → Prop} (h : Emits p R)
    (hk : ∀ tr a, Yields p tr (.ok a) → Emits (k a) fun tr' e => R (tr ++ tr') e) : Emits (p.bind k) R := by
  induction p generalizing R with
  | op e c ih =>
    refine ⟨h.1, fun r => ih r (h.2 r) fun tr a hy => ?_⟩
    exact hk (⟨e, r⟩ :: tr) a (.op _ _ _ _ _ hy)
  | ret a => exact hk [] a (.ret a)
  | _ => trivial

/-- The record that a write stores was sealed before by the call. -/
def FromSealing (P : Prims) (d : D1) (c : Call) (tr : List Event) : Eff → Prop
  | .put id dt data | .update id dt data => ∃ oid k n, id = oid.1 ∧
      ((dt = dtObject ∧ ∃ o, SealsObj P d c tr oid o k n ∧ data = (sealedObj P oid o k n).toJ.render) ∨
        dt = dtAccess ∧ ∃ a, SealsAcc P d c tr oid a k n ∧ data = (sealedAcc P d oid a k n).toJ.render)
  | _ => True

theorem emits_sealObj {o : Object} {oid : Oid} {β : Type} {K : Bytes × SealedObject → Prog β} {R : List Event → Eff → Prop}
    (h : ∀ k n, Emits (K (kwpBox P d.objectCryptor.kwp k.1, sealedObj P oid o k n)) fun tr e => R ([evRand 32 k, evRand 12 n] ++ tr) e) :
    Emits ((o.seal P oid d.objectCryptor).bind K) R := by
  rw [Object.seal, Prog.bind_eq, Cryptor.encrypt_eq L]
  simp only [Prog.bind_assoc, Prog.ret_bind, randBytes, Prog.op_bind]
  refine ⟨by simp [Eff.isWrite], fun r => ?_⟩
  cases r with
  | none => trivial
  | some k =>
    refine ⟨by simp [Eff.isWrite], fun r => ?_⟩
    cases r with
    | none => trivial
    | some n => exact h k n

theorem emits_sealAcc {a : Access} {oid : Oid} {β : Type} {K : SealedAccess → Prog β} {R : List Event → Eff → Prop}
    (h : ∀ k n, Emits (K (sealedAcc P d oid a k n)) fun tr e => R ([evRand 32 k, evRand 12 n] ++ tr) e) :
    Emits ((a.seal P oid d.accessCryptor).bind K) R := by
  rw [Access.seal, Prog.bind_eq, Cryptor.encrypt_eq L]
  simp only [Prog.bind_assoc, Prog.ret_bind, randBytes, Prog.op_bind]
  refine ⟨by simp [Eff.isWrite], fun r => ?_⟩
  cases r with
  | none => trivial
  | some k =>
    refine ⟨by simp [Eff.isWrite], fun r => ?_⟩
    cases r with
    | none => trivial
    | some n => exact h k n

omit L in
theorem emits_put {f : IoErr → Err} {id : Bytes} {dt : DataType} {x : Bytes} {β : Type} {K : Unit → Prog β}
    {R : List Event → Eff → Prop} (h : R [] (.put id dt x)) (hK : ∀ r, Emits (K ()) fun tr e => R (⟨.put id dt x, r⟩ :: tr) e) :
    Emits ((ioPut f id dt x).bind K) R := by
  refine ⟨fun _ => h, fun r => ?_⟩
  cases r with
  | ok u => exact hK _
  | error e => trivial

omit L in
theorem emits_update {f : IoErr → Err} {id : Bytes} {dt : DataType} {x : Bytes} {β : Type} {K : Unit → Prog β}
    {R : List Event → Eff → Prop} (h : R [] (.update id dt x)) (hK : ∀ r, Emits (K ()) fun tr e => R (⟨.update id dt x, r⟩ :: tr) e) :
    Emits ((ioUpdate f id dt x).bind K) R := by
  refine ⟨fun _ => h, fun r => ?_⟩
  cases r with
  | ok u => exact hK _
  | error e => trivial

omit L in
/-- Calls that start with the guard write only after it. -/
theorem guarded_emits {token : GoString} {s : Scope} {oid : Oid} {K : Access → Prog Res} {tr trI pre post : List Event} {i : Identity}
    {ev : Event} {out : Outcome Res} {R : List Event → Eff → Prop} (h : Yields ((guardProg P d token s oid).bind K) tr out)
    (hi : Yields (d.idProvider token) trI (.ok i)) (ht : tr = trI ++ pre ++ ev :: post) (hw : ev.1.isWrite = true)
    (hK : ∀ trG a, Passed P d token s oid trG a → Emits (K a) fun tr e => R (trG ++ tr) e) : R (trI ++ pre) ev.1 := by
  rcases yields_bind.mp h with ⟨tr1, tr2, a, he, h1, h2⟩ | h'
  · obtain ⟨trI', i', bytes, rfl, hi', hs, hacc, hl⟩ := yields_guardProg_ok.mp h1
    have hI : trI' = trI := by
      have hp1 : trI' <+: tr := by rw [he, List.append_assoc]; exact List.prefix_append _ _
      have hp2 : trI <+: tr := by rw [ht, List.append_assoc]; exact List.prefix_append _ _
      rcases List.prefix_or_prefix_of_prefix hp1 hp2 with ⟨x, hx⟩ | ⟨x, hx⟩
      · exact yields_prefix hi' hi (.inl hx)
      · exact (yields_prefix hi hi' (.inl hx)).symm
    subst hI
    have hE := hK _ _ ⟨trI', i', bytes, rfl, hi', hs, hacc, hl⟩
    rw [ht, List.append_assoc, List.append_assoc] at he
    have he2 := List.append_cancel_left he
    cases pre with
    | nil =>
      simp only [List.nil_append, List.singleton_append, List.cons.injEq] at he2
      rw [he2.1] at hw; cases hw
    | cons x pre =>
      simp only [List.cons_append, List.nil_append, List.cons.injEq] at he2
      obtain ⟨rfl, rfl⟩ := he2
      simpa using hE.sound h2 rfl hw
  · exfalso
    have : ev.1.isWrite = false := by
      rcases h' with ⟨e, h, _⟩ | ⟨h, _⟩ | ⟨h, _⟩ <;>
        exact guardProg_reads h (by rw [ht, List.append_assoc]) hi ev (by simp)
    rw [hw] at this; cases this

omit L in
theorem verifyAccess_trace {token : GoString} {s : Scope} {tr trI : List Event} {o : Outcome Identity} {i : Identity}
    (h : Yields (d.verifyAccess token s) tr o) (hi : Yields (d.idProvider token) trI (.ok i)) (hp : trI <+: tr) : tr = trI := by
  have hpre : ∀ {t o}, Yields (d.idProvider token) t o → trI <+: t → t = trI := by
    rintro t o ht ⟨x, hx⟩
    exact (yields_prefix hi ht (.inl hx)).symm
  rw [D1.verifyAccess, yields_attempt] at h
  rcases h with ⟨t1, t2, j, rfl, h2, h3⟩ | ⟨t1, t2, j, rfl, h2, h3⟩ | ⟨h2, _⟩ | ⟨h2, _⟩
  · have : t2 = [] := by
      simp only at h3
      split at h3
      · exact (yields_err.mp h3).1
      · exact (yields_ret.mp h3).1
    subst this
    simp only [List.append_nil] at hp ⊢
    exact hpre h2 hp
  · have : t2 = [] := (yields_err.mp h3).1
    subst this
    simp only [List.append_nil] at hp ⊢
    exact hpre h2 hp
  · exact hpre h2 hp
  · exact hpre h2 hp

/-- Completeness of `SealsObj` and `SealsAcc`: whatever a call writes after asking the Identity Provider (`trI`) is a record made
from a sealing it performed before, with the ciphertext as its only trace of the sealed text. -/
theorem C13_writes_sealed {c : Call} {trI pre post : List Event} {i : Identity} {ev : Event} {out : Outcome Res}
    (h : Yields (callProg P d c) (trI ++ pre ++ ev :: post) out) (hi : Yields (d.idProvider c.token) trI (.ok i))
    (hw : ev.1.isWrite = true) : FromSealing P d c (trI ++ pre) ev.1 := by
  cases c with
  | encrypt t o gs =>
    simp only [callProg, D1.encrypt, Prog.bind_eq, Prog.bind_assoc] at h
    rcases yields_bind.mp h with ⟨tr1, tr2, i', he, h1, h2⟩ | h'
    · obtain ⟨hi', _⟩ := yields_verifyAccess_ok.mp h1
      have hI : tr1 = trI := by
        have hp1 : tr1 <+: trI ++ pre ++ ev :: post := by rw [he]; exact List.prefix_append _ _
        have hp2 : trI <+: trI ++ pre ++ ev :: post := by rw [List.append_assoc]; exact List.prefix_append _ _
        rcases List.prefix_or_prefix_of_prefix hp1 hp2 with ⟨x, hx⟩ | ⟨x, hx⟩
        · exact yields_prefix hi' hi (.inl hx)
        · exact (yields_prefix hi hi' (.inl hx)).symm
      subst hI
      rw [List.append_assoc] at he
      have he2 := List.append_cancel_left he
      refine Emits.sound (R := fun tr e => FromSealing P d (.encrypt t o gs) (tr1 ++ tr) e) ?_ h2 he2.symm hw
      simp only [newV4, randBytes, Prog.bind_eq, Prog.op_bind]
      refine ⟨by simp [Eff.isWrite], fun r => ?_⟩
      cases r with
      | none => trivial
      | some b =>
        simp only [Prog.ret_bind, Prog.pure_eq]
        apply emits_sealObj L
        intro k₀ n₀
        simp only [Access.addGroups, newAccess, addToSet_some, Option.map_some, Prog.ofPanic_some, Prog.ret_bind]
        apply emits_sealAcc L
        intro k n
        simp only [putSealedObject, putSealedAccess]
        apply emits_put
        · refine ⟨mkV4 b, k₀, n₀, rfl, .inl ⟨rfl, o, ⟨rfl, tr1, i', b, hi', rfl, ?_⟩, rfl⟩⟩
          simp
        · intro r
          apply emits_put
          · refine ⟨mkV4 b, k, n, rfl, .inr ⟨rfl, firstAccess gs i' (kwpBox P d.objectCryptor.kwp k₀.1), ⟨tr1, i', b, k₀, n₀, hi', rfl, rfl, ?_⟩, rfl⟩⟩
            simp
          · intro r; trivial
    · exfalso
      have hp : trI <+: trI ++ pre ++ ev :: post := by rw [List.append_assoc]; exact List.prefix_append _ _
      have : trI ++ pre ++ ev :: post = trI := by
        rcases h' with ⟨e, h, _⟩ | ⟨h, _⟩ | ⟨h, _⟩ <;> exact verifyAccess_trace h hi hp
      have := congrArg List.length this
      simp at this
  | update t oid o =>
    simp only [callProg, update_eq, Prog.bind_assoc] at h
    refine guarded_emits (R := FromSealing P d (.update t oid o)) h hi rfl hw fun trG a hp => ?_
    apply emits_sealObj L
    intro k₀ n₀
    apply emits_sealAcc L
    intro k n
    simp only [putSealedObject, putSealedAccess, if_true]
    apply emits_update
    · refine ⟨oid, k₀, n₀, rfl, .inl ⟨rfl, o, ⟨rfl, rfl, trG, a, hp, ?_⟩, rfl⟩⟩
      simp
    · intro r
      apply emits_update
      · refine ⟨oid, k, n, rfl, .inr ⟨rfl, _, ⟨rfl, trG, a, k₀, n₀, hp, rfl, ?_⟩, rfl⟩⟩
        simp
      · intro r; trivial
  | addGroups t oid gs =>
    simp only [callProg, addGroupsToAccess_eq, Prog.bind_assoc] at h
    refine guarded_emits (R := FromSealing P d (.addGroups t oid gs)) h hi rfl hw fun trG a hp => ?_
    cases ha : a.addGroups gs with
    | none => trivial
    | some a' =>
      simp only [Prog.ofPanic_some, Prog.ret_bind]
      apply emits_sealAcc L
      intro k n
      simp only [putSealedAccess, if_true]
      apply emits_update
      · refine ⟨oid, k, n, rfl, .inr ⟨rfl, _, ⟨rfl, trG, a, hp, ha, ?_⟩, rfl⟩⟩
        simp
      · intro r; trivial
  | removeGroups t oid gs =>
    simp only [callProg, removeGroupsFromAccess_eq, Prog.bind_assoc] at h
    refine guarded_emits (R := FromSealing P d (.removeGroups t oid gs)) h hi rfl hw fun trG a hp => ?_
    apply emits_sealAcc L
    intro k n
    simp only [putSealedAccess, if_true]
    apply emits_update
    · refine ⟨oid, k, n, rfl, .inr ⟨rfl, _, ⟨rfl, trG, a, hp, rfl, ?_⟩, rfl⟩⟩
      simp
    · intro r; trivial
  | delete t oid =>
    have hstrip : ∃ out', Yields (d.delete P t oid) (trI ++ pre ++ ev :: post) out' := by
      simp only [callProg] at h
      rcases yields_bind.mp h with ⟨t1, t2, a, he, h1, h2⟩ | ⟨e, h1, _⟩ | ⟨h1, _⟩ | ⟨h1, _⟩
      · obtain ⟨rfl, _⟩ := yields_ret.mp h2
        rw [List.append_nil] at he
        exact ⟨_, he ▸ h1⟩
      all_goals exact ⟨_, h1⟩
    obtain ⟨out', h'⟩ := hstrip
    rcases delete_yields h' with h1 | ⟨_, h1⟩
    · have h2 : Yields ((guardProg P d t scopeDelete oid).bind fun _ => (deleteSealedObject oid).bind fun _ =>
          (deleteSealedAccess oid).bind fun _ => (.ret .unit : Prog Res)) (trI ++ pre ++ ev :: post)
          (match out' with | .ok _ => .ok .unit | .err e => .err e | .panic => .panic | .diverge => .diverge) := by
        have : ((guardProg P d t scopeDelete oid).bind fun _ => (deleteSealedObject oid).bind fun _ =>
          (deleteSealedAccess oid).bind fun _ => (.ret .unit : Prog Res)) = ((guardProg P d t scopeDelete oid).bind fun _ =>
            (deleteSealedObject oid).bind fun _ => deleteSealedAccess oid).bind fun _ => .ret .unit := by
          simp only [Prog.bind_assoc]
        rw [this, yields_bind]
        cases out' with
        | ok u => exact .inl ⟨_, [], u, by simp, h1, .ret _⟩
        | err e => exact .inr (.inl ⟨e, h1, rfl⟩)
        | panic => exact .inr (.inr (.inl ⟨h1, rfl⟩))
        | diverge => exact .inr (.inr (.inr ⟨h1, rfl⟩))
      refine guarded_emits (R := FromSealing P d (.delete t oid)) h2 hi rfl hw fun trG a hp => ?_
      refine ⟨fun _ => trivial, fun r => ?_⟩
      cases r with
      | error e => trivial
      | ok u =>
        refine ⟨fun _ => trivial, fun r => ?_⟩
        cases r <;> trivial
    · exfalso
      have := guardProg_reads h1 (by rw [List.append_assoc]) hi ev (by simp)
      rw [hw] at this; cases this
  | decrypt t oid =>
    simp only [callProg, decrypt_eq, Prog.bind_assoc] at h
    refine guarded_emits (R := FromSealing P d (.decrypt t oid)) h hi rfl hw fun trG a hp => ?_
    simp only [getSealedObject, ioGet, Prog.bind_eq, Prog.op_bind]
    refine ⟨by simp [Eff.isWrite], fun r => ?_⟩
    cases r with
    | error e => trivial
    | ok bytes =>
      simp only [Prog.ret_bind]
      cases (P.unmarshal bytes).bind (SealedObject.ofJ P) with
      | none => trivial
      | some so =>
        simp only [Prog.pure_eq, Prog.ret_bind]
        cases ({ so with oid := oid } : SealedObject).unseal P a.wrappedDEK d.objectCryptor <;> trivial
  | getGroups t oid =>
    simp only [callProg, getAccessGroups_eq, Prog.bind_assoc] at h
    exact guarded_emits (R := FromSealing P d (.getGroups t oid)) h hi rfl hw fun trG a hp => trivial
  | authorize t oid =>
    simp only [callProg, authorizeIdentity_eq, Prog.bind_assoc] at h
    exact guarded_emits (R := FromSealing P d (.authorize t oid)) h hi rfl hw fun trG a hp => trivial

end

/-! ## A concrete history -/

section
variable (b : BytesN 16) (o : Object) (k₀ k : BytesN 32) (n₀ n : BytesN 12)

/-- Call 0 encrypts, all others decrypt. -/
def toyCalls : Nat → Call := fun j => if j = 0 then .encrypt [7] o [[8]] else .decrypt [7] (mkV4 b)

def toyAcc : Access := firstAccess [[8]] ⟨[7], scopeAll, [([50], ⟨[50], scopeAll⟩)]⟩ (kwpBox toyPrims toyD1.objectCryptor.kwp k₀.1)
def toyObjRec : Bytes := (sealedObj toyPrims (mkV4 b) o k₀ n₀).toJ.render
def toyAccRec : Bytes := (sealedAcc toyPrims toyD1 (mkV4 b) (toyAcc k₀) k n).toJ.render

/-- Call 0 runs to its end and call 1 is answered with the records that call 0 stored. -/
def toyHist : List (Nat × Event) :=
  [(0, evRand 16 b), (0, evRand 32 k₀), (0, evRand 12 n₀), (0, evRand 32 k), (0, evRand 12 n),
    (0, ⟨.put (mkV4 b).1 dtObject (toyObjRec b o k₀ n₀), (.ok () : Except IoErr Unit)⟩),
    (0, ⟨.put (mkV4 b).1 dtAccess (toyAccRec b k₀ k n), (.ok () : Except IoErr Unit)⟩),
    (1, evGet (mkV4 b) dtAccess (toyAccRec b k₀ k n)), (1, evGet (mkV4 b) dtObject (toyObjRec b o k₀ n₀))]

theorem evRand_inj {n : Nat} {b b' : BytesN n} (h : evRand n b = evRand n b') : b = b' :=
  Option.some.inj (eq_of_heq (Sigma.mk.inj h).2)

theorem evGet_inj {oid oid' : Oid} {dt dt' : DataType} {x x' : Bytes} (h : evGet oid dt x = evGet oid' dt' x') :
    oid = oid' ∧ dt = dt' ∧ x = x' := by
  obtain ⟨h1, h2⟩ := Sigma.mk.inj h
  simp only [Eff.get.injEq] at h1
  obtain ⟨h1, rfl⟩ := h1
  have := Subtype.ext h1
  subst this
  exact ⟨rfl, rfl, Except.ok.inj (eq_of_heq h2)⟩

theorem evGet_eff {e : Event} {oid : Oid} {dt : DataType} {x : Bytes} (h : e = evGet oid dt x) : e.1 = .get oid.1 dt := by rw [h]

theorem prefix_snoc {α : Type} {l l' : List α} {x : α} (h : l' ++ [x] <+: l) : l' = l.take l'.length ∧ l[l'.length]? = some x := by
  obtain ⟨t, rfl⟩ := h
  simp

/-- C13 and C14 apply to it: the `Decrypt` succeeds, and there is no attack. -/
example : Yields (toyD1.decrypt toyPrims [7] (mkV4 b)) (proj 1 (toyHist b o k₀ k n₀ n)) (.ok o) ∧
    ¬ Attack toyPrims toyD1 (toyCalls b o) (toyHist b o k₀ k n₀ n) := by
  have hacc : ∀ sa, (toyPrims.unmarshal (toyAccRec b k₀ k n)).bind (SealedAccess.ofJ toyPrims) = some sa →
      sa = sealedAcc toyPrims toyD1 (mkV4 b) (toyAcc k₀) k n := by
    intro sa h
    rw [toyAccRec, toyLaws.unmarshal_render, Option.bind_some, SealedAccess.ofJ_toJ toyLaws] at h
    cases h; rfl
  have hobj : ∀ so, (toyPrims.unmarshal (toyObjRec b o k₀ n₀)).bind (SealedObject.ofJ toyPrims) = some so →
      so = sealedObj toyPrims (mkV4 b) o k₀ n₀ := by
    intro so h
    rw [toyObjRec, toyLaws.unmarshal_render, Option.bind_some, SealedObject.ofJ_toJ toyLaws] at h
    cases h; rfl
  constructor
  · rw [yields_decrypt_ok]
    refine ⟨[evGet (mkV4 b) dtAccess (toyAccRec b k₀ k n)], ⟨(toyAcc k₀).groups.map sanList, (toyAcc k₀).wrappedDEK⟩, toyObjRec b o k₀ n₀,
      sealedObj toyPrims (mkV4 b) o k₀ n₀, rfl,
      ⟨[], ⟨[7], scopeAll, [([50], ⟨[50], scopeAll⟩)]⟩, toyAccRec b k₀ k n, rfl, .ret _, by decide,
        ⟨sealedAcc toyPrims toyD1 (mkV4 b) (toyAcc k₀) k n, ?_, ?_⟩, ?_⟩, ?_, ?_, rfl⟩
    · rw [toyAccRec, toyLaws.unmarshal_render, Option.bind_some, SealedAccess.ofJ_toJ toyLaws]
    · simp only [sealedAcc, NBytes.bytes, Option.getD_some]
      rw [Cryptor.decrypt_box toyLaws, Access.ofJ_toJ]
    · refine ⟨[7], by decide, ?_, by decide⟩
      show GoSet.has (some (sanList _)) [7] = true
      decide +kernel
    · rw [toyObjRec, toyLaws.unmarshal_render, Option.bind_some, SealedObject.ofJ_toJ toyLaws]
    · simp only [sealedObj, toyAcc, firstAccess, NBytes.bytes, Option.getD_some]
      have := Cryptor.decrypt_box toyLaws toyD1.objectCryptor J.toBytes (objectAad (mkV4 b) o.associatedData) (J.ofBytes o.plaintext) k₀ n₀
      simpa only [san_ofBytes, toBytes_ofBytes] using this
  · rintro ⟨H0, hp, ⟨j, H', oid, bytes, sa, a, rfl, hu, hdec, hn⟩ | ⟨j, H', oid, bytes, so, p, rfl, hu, j', o', k', n', hs, hdec, hn⟩⟩
    · obtain ⟨h1, h2⟩ := prefix_snoc hp
      have hlen : H'.length = 7 ∧ oid = mkV4 b ∧ bytes = toyAccRec b k₀ k n := by
        rcases hl : H'.length with _ | _ | _ | _ | _ | _ | _ | _ | _ | m <;> rw [hl] at h2 <;>
          simp only [toyHist, List.getElem?_cons_zero, List.getElem?_cons_succ, Option.some.injEq, Prod.mk.injEq, List.getElem?_nil] at h2 <;>
          first
          | (cases h2; done)
          | (obtain ⟨e1, _, e2⟩ := evGet_inj h2.2; exact ⟨rfl, e1.symm, e2.symm⟩)
          | (exact absurd (evGet_eff h2.2) (by simp [dtAccess, dtObject]))
      obtain ⟨hl, rfl, rfl⟩ := hlen
      have := hacc _ hu
      subst this
      apply hn
      refine ⟨accEv toyD1 (mkV4 b) (toyAcc k₀) k n, ⟨0, mkV4 b, k, n, .inr ⟨_, ?_, rfl⟩⟩, rfl, rfl, rfl, rfl⟩
      refine ⟨[], ⟨[7], scopeAll, [([50], ⟨[50], scopeAll⟩)]⟩, b, k₀, n₀, .ret _, rfl, rfl, ?_⟩
      rw [proj_append, h1, hl]
      exact List.IsPrefix.trans (by simp [proj, toyHist]) (List.prefix_append _ _)
    · obtain ⟨h1, h2⟩ := prefix_snoc hp
      have hlen : H'.length = 8 ∧ oid = mkV4 b ∧ bytes = toyObjRec b o k₀ n₀ := by
        rcases hl : H'.length with _ | _ | _ | _ | _ | _ | _ | _ | _ | m <;> rw [hl] at h2 <;>
          simp only [toyHist, List.getElem?_cons_zero, List.getElem?_cons_succ, Option.some.injEq, Prod.mk.injEq, List.getElem?_nil] at h2 <;>
          first
          | (cases h2; done)
          | (obtain ⟨e1, _, e2⟩ := evGet_inj h2.2; exact ⟨rfl, e1.symm, e2.symm⟩)
          | (exact absurd (evGet_eff h2.2) (by simp [dtAccess, dtObject]))
      obtain ⟨hl, rfl, rfl⟩ := hlen
      have := hobj _ hu
      subst this
      have hj' : j' = 0 := by
        by_contra hne
        simp [toyCalls, hne, SealsObj] at hs
      subst hj'
      have hpre : [evRand 16 b, evRand 32 k₀, evRand 12 n₀] <+: proj 0 (H' ++ [(j, evGet (mkV4 b) dtObject (toyObjRec b o k₀ n₀))]) := by
        rw [proj_append, h1, hl]
        exact List.IsPrefix.trans (by simp [proj, toyHist]) (List.prefix_append _ _)
      obtain ⟨rfl, trI, i, b', hi, _, hp'⟩ := hs
      obtain ⟨rfl, _⟩ := yields_ret.mp (show Yields (.ret (⟨[7], scopeAll, [([50], ⟨[50], scopeAll⟩)]⟩ : Identity)) trI (.ok i) from hi)
      have heq : [evRand 16 b, evRand 32 k₀, evRand 12 n₀] = [evRand 16 b', evRand 32 k', evRand 12 n'] := by
        rcases List.prefix_or_prefix_of_prefix hpre hp' with h | h
        · exact h.eq_of_length rfl
        · exact (h.eq_of_length rfl).symm
      simp only [List.cons.injEq, and_true] at heq
      obtain ⟨e1, e2, e3⟩ := heq
      have e1 := evRand_inj e1
      have e2 := evRand_inj e2
      have e3 := evRand_inj e3
      subst e1 e2 e3
      apply hn
      exact ⟨objEv toyD1 (mkV4 b) o k₀ n₀, ⟨0, mkV4 b, k₀, n₀, .inl ⟨o, ⟨rfl, [], _, b, .ret _, rfl, hpre⟩, rfl⟩⟩, rfl, rfl, rfl, rfl⟩

end

end D1
