import Verif.Props.Authentic
import Verif.Props.Binding
/-!
# Contents come only with the access list of their own version: C111

Setting as for C13: any number of calls run concurrently against a provider that answers as it likes, for example with records from
backups.

A version of an object is made by an `Encrypt` or `Update`: its contents, its data key and its access list.  From then on
`AddGroupsToAccess` and `RemoveGroupsFromAccess` make further lists from lists of that version.  What `Decrypt` returns to a caller are the
contents of a version one of whose lists names the caller, however the provider mixes records of different times.
-/
namespace D1
open Spec Prog

/-- Call `c`, having done `tr`, drew the data key `k` for `oid` and sealed `a` as the first list of that version. -/
def Founds (P : Prims) (d : D1) (c : Call) (tr : List Event) (oid : Oid) (k : BytesN 32) (a : Access) : Prop :=
  match c with
  | .encrypt t _ gs => ∃ trI i b n k' n', Yields (d.idProvider t) trI (.ok i) ∧ oid = mkV4 b ∧
      a = firstAccess gs i (kwpBox P d.objectCryptor.kwp k.1) ∧
      trI ++ [evRand 16 b, evRand 32 k, evRand 12 n, evRand 32 k', evRand 12 n'] <+: tr
  | .update t oid' _ => oid' = oid ∧ ∃ trG a₀ n k' n', Passed P d t scopeUpdate oid trG a₀ ∧
      a = ⟨a₀.groups, some (kwpBox P d.objectCryptor.kwp k.1)⟩ ∧
      trG ++ [evRand 32 k, evRand 12 n, evRand 32 k', evRand 12 n'] <+: tr
  | _ => False

/-- Call `c`, having done `tr`, was let through by the list `a₀` after `trG`, and sealed `a` instead. -/
def Edits (P : Prims) (d : D1) (c : Call) (trG tr : List Event) (oid : Oid) (a₀ a : Access) : Prop :=
  match c with
  | .addGroups t oid' gs => oid' = oid ∧ Passed P d t scopeModifyAccessGroups oid trG a₀ ∧ a₀.addGroups gs = some a ∧
      ∃ k n, trG ++ [evRand 32 k, evRand 12 n] <+: tr
  | .removeGroups t oid' gs => oid' = oid ∧ Passed P d t scopeModifyAccessGroups oid trG a₀ ∧ a = a₀.removeGroups gs ∧
      ∃ k n, trG ++ [evRand 32 k, evRand 12 n] <+: tr
  | _ => False

/-- How a list reads after it was stored. -/
def Access.stored (a : Access) : Access := ⟨a.groups.map sanList, a.wrappedDEK⟩

/-- `ListOf … j k H a`: in the history `H`, `a` is a list of the version with data key `k` made by call number `j`. -/
inductive ListOf (P : Prims) (d : D1) (calls : Nat → Call) (oid : Oid) (j : Nat) (k : BytesN 32) : List (Nat × Event) → Access → Prop
  | first {H : List (Nat × Event)} {a : Access} : Founds P d (calls j) (proj j H) oid k a → ListOf P d calls oid j k H a
  | next {H H' : List (Nat × Event)} {a a' : Access} {i : Nat} : ListOf P d calls oid j k H' a' → H' <+: H →
      Edits P d (calls i) (proj i H') (proj i H) oid a'.stored a → ListOf P d calls oid j k H a

/-- No two calls drew the same 32 bytes. -/
def DrawnApart (H : List (Nat × Event)) : Prop := ∀ i j k, evRand 32 k ∈ proj i H → evRand 32 k ∈ proj j H → i = j

section
variable {P : Prims} {d : D1} {calls : Nat → Call}

theorem Founds.mono {c : Call} {tr tr' : List Event} {oid : Oid} {k : BytesN 32} {a : Access} (ht : tr <+: tr') (h : Founds P d c tr oid k a) :
    Founds P d c tr' oid k a := by
  cases c <;> simp only [Founds] at h ⊢
  · obtain ⟨trI, i, b, n, k', n', h1, h2, h3, h4⟩ := h
    exact ⟨trI, i, b, n, k', n', h1, h2, h3, h4.trans ht⟩
  · obtain ⟨h0, trG, a₀, n, k', n', h1, h2, h3⟩ := h
    exact ⟨h0, trG, a₀, n, k', n', h1, h2, h3.trans ht⟩

theorem Founds.drew {c : Call} {tr : List Event} {oid : Oid} {k : BytesN 32} {a : Access} (h : Founds P d c tr oid k a) : evRand 32 k ∈ tr := by
  cases c <;> simp only [Founds] at h
  · obtain ⟨trI, i, b, n, k', n', -, -, -, h⟩ := h
    exact h.subset (by simp)
  · obtain ⟨-, trG, a₀, n, k', n', -, -, h⟩ := h
    exact h.subset (by simp)

theorem SealsObj.drew {c : Call} {tr : List Event} {oid : Oid} {o : Object} {k : BytesN 32} {n : BytesN 12} (h : SealsObj P d c tr oid o k n) :
    evRand 32 k ∈ tr := by
  cases c <;> simp only [SealsObj] at h
  · obtain ⟨-, trI, i, b, -, -, h⟩ := h
    exact h.subset (by simp)
  · obtain ⟨-, -, trG, a, -, h⟩ := h
    exact h.subset (by simp)

theorem ListOf.drew {H : List (Nat × Event)} {oid : Oid} {j : Nat} {k : BytesN 32} {a : Access} (h : ListOf P d calls oid j k H a) :
    evRand 32 k ∈ proj j H := by
  induction h with
  | first h => exact h.drew
  | next _ hp _ ih => exact (proj_prefix j hp).subset ih

/-- The list was made for the data key of its version. -/
theorem ListOf.key {H : List (Nat × Event)} {oid : Oid} {j : Nat} {k : BytesN 32} {a : Access} (h : ListOf P d calls oid j k H a) :
    a.wrappedDEK = some (kwpBox P d.objectCryptor.kwp k.1) := by
  induction h with
  | first h =>
    cases hc : calls j <;> rw [hc] at h <;> simp only [Founds] at h
    · obtain ⟨trI, i, b, n, k', n', -, -, rfl, -⟩ := h; rfl
    · obtain ⟨-, trG, a₀, n, k', n', -, rfl, -⟩ := h; rfl
  | @next H H' a a' i h hp he ih =>
    cases hc : calls i <;> rw [hc] at he <;> simp only [Edits] at he
    · obtain ⟨-, -, h2, -⟩ := he
      simp only [Access.addGroups, Option.map_eq_some_iff] at h2
      obtain ⟨g, -, rfl⟩ := h2
      exact ih
    · obtain ⟨-, -, rfl, -⟩ := he
      exact ih

variable (L : P.Laws)
include L

/-- Every list that is sealed belongs to a version; or the provider presented a forgery. -/
theorem listOf_of_seals (H : List (Nat × Event)) {i : Nat} {oid : Oid} {a : Access} {k : BytesN 32} {n : BytesN 12}
    (h : SealsAcc P d (calls i) (proj i H) oid a k n) : (∃ j k, ListOf P d calls oid j k H a) ∨ Attack P d calls H := by
  induction hl : H.length using Nat.strongRecOn generalizing H i a k n with
  | ind m ih =>
  have copied : ∀ t s trG a₀ x y, Passed P d t s oid trG a₀ → trG ++ [x, y] <+: proj i H →
      (∀ tr, Passed P d t s oid tr a₀ → tr ++ [x, y] <+: proj i H → Edits P d (calls i) tr (proj i H) oid a₀ a) →
      (∃ j k, ListOf P d calls oid j k H a) ∨ Attack P d calls H := by
    rintro t s trG a₀ x y hpass hpre hed
    obtain ⟨trI, id, bytes, rfl, h1, h2, hacc, hlist⟩ := hpass
    have hpre2 : trI ++ [evGet oid dtAccess bytes] <+: proj i H := (List.prefix_append _ _).trans hpre
    obtain ⟨H', hH', hproj⟩ := proj_split hpre2
    have hpr : proj i (H' ++ [(i, evGet oid dtAccess bytes)]) = trI ++ [evGet oid dtAccess bytes] := by
      rw [proj_append, hproj]
      simp [proj]
    have hlt : (H' ++ [(i, evGet oid dtAccess bytes)]).length < m := by
      rcases Nat.lt_or_ge (H' ++ [(i, evGet oid dtAccess bytes)]).length m with h | h
      · exact h
      · exfalso
        have heq : H' ++ [(i, evGet oid dtAccess bytes)] = H := hH'.eq_of_length (by have := hH'.length_le; omega)
        rw [← heq, hpr] at hpre
        have := hpre.length_le
        simp at this
    rcases C14_access_bound L (calls := calls) (j := i) (H' := H') hacc hlist.groups with ⟨j', a', k', n', h3, rfl⟩ | h3
    · rcases ih _ hlt _ h3 rfl with ⟨j, k, h4⟩ | h4
      · refine .inl ⟨j, k, .next (i := i) h4 hH' ?_⟩
        rw [hpr]
        exact hed _ ⟨trI, id, bytes, rfl, h1, h2, hacc, hlist⟩ hpre
      · exact .inr (h4.mono hH')
    · exact .inr ⟨_, hH', .inl h3⟩
  cases hc : calls i <;> rw [hc] at h <;> simp only [SealsAcc] at h
  case encrypt t o gs =>
    obtain ⟨trI, id, b, k₀, n₀, h1, h2, h3, h4⟩ := h
    refine .inl ⟨i, k₀, .first ?_⟩
    rw [hc]
    exact ⟨trI, id, b, n₀, k, n, h1, h2, h3, h4⟩
  case update t oid' o =>
    obtain ⟨h0, trG, a₀, k₀, n₀, h1, h2, h4⟩ := h
    refine .inl ⟨i, k₀, .first ?_⟩
    rw [hc]
    exact ⟨h0, trG, a₀, n₀, k, n, h1, h2, h4⟩
  case addGroups t oid' gs =>
    obtain ⟨h0, trG, a₀, h1, h2, h4⟩ := h
    refine copied t _ trG a₀ _ _ h1 h4 fun tr h5 h6 => ?_
    rw [hc]
    exact ⟨h0, h5, h2, k, n, h6⟩
  case removeGroups t oid' gs =>
    obtain ⟨h0, trG, a₀, h1, h2, h4⟩ := h
    refine copied t _ trG a₀ _ _ h1 h4 fun tr h5 h6 => ?_
    rw [hc]
    exact ⟨h0, h5, h2, k, n, h6⟩

/-- C111: when call number `i` is a `Decrypt` of `oid` that returned `o`, then a call `j` made a version of `oid` with exactly these contents,
and one of the lists of this version names the caller; or the provider presented a forgery.  (No two calls drew the same data key.) -/
theorem C111_versions {H : List (Nat × Event)} (hH : DrawnApart H) {i : Nat} {t : GoString} {oid : Oid} {o : Object}
    (h : Yields (d.decrypt P t oid) (proj i H) (.ok o)) :
    (∃ j k n o' a trI id, SealsObj P d (calls j) (proj j H) oid o' k n ∧ o'.plaintext = o.plaintext ∧
      o'.associatedData.bytes = o.associatedData.bytes ∧ (∃ H', H' <+: H ∧ ListOf P d calls oid j k H' a) ∧
      trI <+: proj i H ∧ Yields (d.idProvider t) trI (.ok id) ∧ Lists id scopeDecrypt a.stored) ∨ Attack P d calls H := by
  obtain ⟨trG, a, bytes, so, htr, ⟨trI, id, ab, rfl, hid, _, hacc, hlist⟩, hu, hdec, had⟩ := yields_decrypt_ok.mp h
  have hp1 : trI ++ [evGet oid dtAccess ab] <+: proj i H := by rw [htr]; exact List.prefix_append _ _
  obtain ⟨H1, hH1, hproj1⟩ := proj_split hp1
  have hp2 : (trI ++ [evGet oid dtAccess ab]) ++ [evGet oid dtObject bytes] <+: proj i H := by rw [htr]
  obtain ⟨H2, hH2, hproj2⟩ := proj_split hp2
  have hH12 : H1 ++ [(i, evGet oid dtAccess ab)] <+: H2 ++ [(i, evGet oid dtObject bytes)] := by
    rcases List.prefix_or_prefix_of_prefix hH1 hH2 with h | h
    · exact h
    · exfalso
      have := (proj_prefix i h).length_le
      rw [proj_append, proj_append, hproj1, hproj2] at this
      simp [proj] at this
  rcases C14_access_bound L (calls := calls) (j := i) (H' := H1) hacc hlist.groups with ⟨j', a', k', n', h1, rfl⟩ | h1
  · rcases listOf_of_seals L _ h1 with ⟨j, k, h2⟩ | h2
    · rcases C13_key_origin L _ h1 with ⟨j2, o2, k2, n2, h3, h4⟩ | h3
      · simp only at hdec
        have hk2 : k2 = k := by
          have := h4.symm.trans h2.key
          exact Subtype.ext (kwpBox_inj L _ _ _ k2.2 k.2 (Option.some.inj this))
        subst hk2
        rw [h4] at hdec
        have h3' := h3.mono (proj_prefix j2 hH12)
        by_cases hp : Produced P (Sealed P d calls (H2 ++ [(i, evGet oid dtObject bytes)])) d.objectCryptor.kwp
            (objectAad oid so.associatedData).render (kwpBox P d.objectCryptor.kwp k2.1) so.ciphertext.bytes
        · left
          obtain ⟨ev, jj, hS, hk, haad, hw, hu2, hdec2⟩ := produced_text L hdec hp
          have hk3 : k2 = ev.key := Subtype.ext (kwpBox_inj L _ _ _ k2.2 ev.key.2 hw)
          obtain ⟨j3, oid3, k3, n3, ⟨o3, ho3, rfl⟩ | ⟨a3, ha3, rfl⟩⟩ := hS
          · simp only [objEv] at haad hu2 hk3
            subst hk3
            rw [L.unmarshal_render, san_ofBytes, Option.some.injEq] at hu2
            subst hu2
            rw [toBytes_ofBytes, Option.some.injEq] at hdec2
            obtain ⟨rfl, hb⟩ := objectAad_inj L haad
            have hj : j3 = j := hH j3 j k2 ((proj_prefix j3 hH2).subset ho3.drew) ((proj_prefix j hH1).subset h2.drew)
            subst hj
            exact ⟨j3, k2, n3, o3, a', trI, id, ho3.mono (proj_prefix j3 hH2), hdec2, by rw [had]; exact hb, ⟨_, hH1, h2⟩,
              (List.prefix_append _ _).trans hp1, hid, hlist⟩
          · exfalso
            simp only [accEv, L.unmarshal_render, Option.some.injEq] at hu2
            subst hu2
            simp [Access.toJ, J.san, J.toBytes] at hdec2
        · exact .inr ⟨_, hH2, .inr ⟨i, H2, oid, bytes, so, o.plaintext, rfl, hu, j2, o2, k2, n2, h3', hdec, hp⟩⟩
      · exact .inr (h3.mono hH1)
    · exact .inr (h2.mono hH1)
  · exact .inr ⟨_, hH1, .inl h1⟩

omit L in
/-- No list of the version names anybody in `G`, if its first list does not, and no call that adds somebody in `G` was let through by one of its
lists. -/
theorem ListOf.names {G : GoString → Prop} {H : List (Nat × Event)} {oid : Oid} {j : Nat} {k : BytesN 32} {a : Access}
    (h : ListOf P d calls oid j k H a) (h1 : ∀ a, Founds P d (calls j) (proj j H) oid k a → ∀ x, a.groups.has x = true → ¬ G (sanitize x))
    (h2 : ∀ i t gs g H' a', calls i = .addGroups t oid gs → g ∈ gs → G (sanitize g) → H' <+: H →
      Passed P d t scopeModifyAccessGroups oid (proj i H') a'.stored → ¬ ListOf P d calls oid j k H' a') :
    ∀ x, a.groups.has x = true → ¬ G (sanitize x) := by
  have stored : ∀ {a : Access}, (∀ x, a.groups.has x = true → ¬ G (sanitize x)) → ∀ x, a.stored.groups.has x = true → ¬ G (sanitize x) := by
    intro a ha x hx
    cases hg : a.groups with
    | none => rw [Access.stored, hg] at hx; cases hx
    | some l =>
      simp only [Access.stored, hg, Option.map_some, GoSet.has, decide_eq_true_eq] at hx
      obtain ⟨y, hy, rfl⟩ := (mem_sanList l x).mp hx
      rw [sanitize_idem]
      exact ha y (by simpa [hg, GoSet.has] using hy)
  induction h with
  | first h => exact h1 _ h
  | @next H H' a a' i h hp he ih =>
    have ihs := stored (ih (fun a ha => h1 a (ha.mono (proj_prefix j hp))) fun i t gs g H'' a'' hc hg hG hp' => h2 i t gs g H'' a'' hc hg hG (hp'.trans hp))
    intro x hx hG
    cases hc : calls i <;> rw [hc] at he <;> simp only [Edits] at he
    · obtain ⟨rfl, hpass, h3, -⟩ := he
      rcases has_add h3 hx with h4 | h4
      · exact ihs x h4 hG
      · exact h2 i _ _ x H' a' hc h4 hG hp hpass h
    · obtain ⟨rfl, -, rfl, -⟩ := he
      exact ihs x (has_remove hx) hG

/-- C111, backups: the caller's IDs are all in `G`.  Nobody in `G` is on the first list of the version that call `j` made, and whenever a call adds
somebody in `G` it is let through by a list of another version.  Then whatever old records the provider returns, `Decrypt` does not return
to the caller the contents of that version (but those of another one, which may of course be equal); or the provider presented a forgery. -/
theorem C111_backups {H : List (Nat × Event)} (hH : DrawnApart H) {i j : Nat} {t : GoString} {oid : Oid} {o : Object} {G : GoString → Prop}
    (hG : ∀ tr id, Yields (d.idProvider t) tr (.ok id) → ∀ x ∈ id.getIDs, G x)
    (h1 : ∀ k a, Founds P d (calls j) (proj j H) oid k a → ∀ x, a.groups.has x = true → ¬ G (sanitize x))
    (h2 : ∀ i t gs g H' k a', calls i = .addGroups t oid gs → g ∈ gs → G (sanitize g) → H' <+: H →
      Passed P d t scopeModifyAccessGroups oid (proj i H') a'.stored → ¬ ListOf P d calls oid j k H' a')
    (h : Yields (d.decrypt P t oid) (proj i H) (.ok o)) :
    (∃ j' k n o', j' ≠ j ∧ SealsObj P d (calls j') (proj j' H) oid o' k n ∧ o'.plaintext = o.plaintext ∧
      o'.associatedData.bytes = o.associatedData.bytes) ∨ Attack P d calls H := by
  rcases C111_versions L (calls := calls) hH h with ⟨j', k, n, o', a, trI, id, g1, g2, g3, ⟨H', hp, g4⟩, -, g5, x, hx, hax, -⟩ | h3
  · refine .inl ⟨j', k, n, o', ?_, g1, g2, g3⟩
    rintro rfl
    have := g4.names (G := G) (fun a ha => h1 k a (ha.mono (proj_prefix _ hp)))
      fun i t gs g H'' a' hc hg hG' hp' => h2 i t gs g H'' k a' hc hg hG' (hp'.trans hp)
    cases hg : a.groups with
    | none => rw [Access.stored, hg] at hax; cases hax
    | some l =>
      simp only [Access.stored, hg, Option.map_some, GoSet.has, decide_eq_true_eq] at hax
      obtain ⟨y, hy, rfl⟩ := (mem_sanList l x).mp hax
      exact this y (by simpa [hg, GoSet.has] using hy) (hG _ _ g5 _ hx)
  · exact .inr h3

end

/-! ## A concrete history -/

section
variable (b : BytesN 16) (o o' : Object)

def kk (c : UInt8) : BytesN 32 := ⟨List.replicate 32 c, rfl⟩
def nn (c : UInt8) : BytesN 12 := ⟨List.replicate 12 c, rfl⟩

/-- `[7]` encrypts and shares with `[8]`, updates, and adds `[9]`; then `[9]` decrypts. -/
def twoCalls : Nat → Call
  | 0 => .encrypt [7] o [[8]]
  | 1 => .update [7] (mkV4 b) o'
  | 2 => .addGroups [7] (mkV4 b) [[9]]
  | _ => .decrypt [9] (mkV4 b)

def toyWho (t : GoString) : Identity := ⟨t, scopeAll, [([50], ⟨[50], scopeAll⟩)]⟩

def list0 : Access := firstAccess [[8]] (toyWho [7]) (kwpBox toyPrims toyD1.objectCryptor.kwp (kk 1).1)
def list1 : Access := ⟨list0.stored.groups, some (kwpBox toyPrims toyD1.objectCryptor.kwp (kk 3).1)⟩
def list2 : Access := ⟨list1.stored.groups.map fun l => [[9]].foldl setInsert l, list1.wrappedDEK⟩

def accRec (a : Access) (c : UInt8) : Bytes := (sealedAcc toyPrims toyD1 (mkV4 b) a (kk c) (nn c)).toJ.render
def objRec (c : UInt8) : Bytes := (sealedObj toyPrims (mkV4 b) o (kk c) (nn c)).toJ.render

def twoHist : List (Nat × Event) :=
  [(0, evRand 16 b), (0, evRand 32 (kk 1)), (0, evRand 12 (nn 1)), (0, evRand 32 (kk 2)), (0, evRand 12 (nn 2)),
    (0, ⟨.put (mkV4 b).1 dtObject (objRec b o 1), (.ok () : Except IoErr Unit)⟩),
    (0, ⟨.put (mkV4 b).1 dtAccess (accRec b list0 2), (.ok () : Except IoErr Unit)⟩),
    (1, evGet (mkV4 b) dtAccess (accRec b list0 2)), (1, evRand 32 (kk 3)), (1, evRand 12 (nn 3)), (1, evRand 32 (kk 4)), (1, evRand 12 (nn 4)),
    (1, ⟨.update (mkV4 b).1 dtObject (objRec b o' 3), (.ok () : Except IoErr Unit)⟩),
    (1, ⟨.update (mkV4 b).1 dtAccess (accRec b list1 4), (.ok () : Except IoErr Unit)⟩),
    (2, evGet (mkV4 b) dtAccess (accRec b list1 4)), (2, evRand 32 (kk 5)), (2, evRand 12 (nn 5)),
    (2, ⟨.update (mkV4 b).1 dtAccess (accRec b list2 5), (.ok () : Except IoErr Unit)⟩),
    (3, evGet (mkV4 b) dtAccess (accRec b list2 5)), (3, evGet (mkV4 b) dtObject (objRec b o' 3))]

theorem mem_proj {j : Nat} {H : List (Nat × Event)} {e : Event} : e ∈ proj j H ↔ (j, e) ∈ H := by
  simp only [proj, List.mem_filterMap]
  constructor
  · rintro ⟨⟨i, e'⟩, h, h'⟩
    split at h'
    · next hij => cases h'; simp only at hij; subst hij; exact h
    · cases h'
  · exact fun h => ⟨_, h, by simp⟩

theorem evRand_ne {m n : Nat} {x : BytesN m} {y : BytesN n} (h : evRand m x = evRand n y) : m = n := by
  have := (Sigma.mk.inj h).1
  simpa using this

theorem evRand_eff {n : Nat} {x : BytesN n} {e : Event} (h : evRand n x = e) : e.1 = .rand n := by rw [← h]

theorem twoHist_drew {i : Nat} {k : BytesN 32} (h : evRand 32 k ∈ proj i (twoHist b o o')) :
    i = 0 ∧ (k = kk 1 ∨ k = kk 2) ∨ i = 1 ∧ (k = kk 3 ∨ k = kk 4) ∨ i = 2 ∧ k = kk 5 := by
  rw [mem_proj] at h
  simp only [twoHist, List.mem_cons, Prod.mk.injEq, List.not_mem_nil, or_false] at h
  rcases h with ⟨rfl, h⟩ | ⟨rfl, h⟩ | ⟨rfl, h⟩ | ⟨rfl, h⟩ | ⟨rfl, h⟩ | ⟨rfl, h⟩ | ⟨rfl, h⟩ | ⟨rfl, h⟩ | ⟨rfl, h⟩ | ⟨rfl, h⟩ | ⟨rfl, h⟩ | ⟨rfl, h⟩ |
    ⟨rfl, h⟩ | ⟨rfl, h⟩ | ⟨rfl, h⟩ | ⟨rfl, h⟩ | ⟨rfl, h⟩ | ⟨rfl, h⟩ | ⟨rfl, h⟩ | ⟨rfl, h⟩ <;>
  first
  | (have := evRand_inj h; subst this; simp; done)
  | (exact absurd (evRand_ne h) (by decide))
  | (exact absurd (evRand_eff h) (by simp))

theorem accepts_accRec {a a' : Access} {c : UInt8} : Accepts toyPrims toyD1 (mkV4 b) (accRec b a c) a' ↔ a' = a.stored := by
  unfold Accepts accRec
  rw [toyLaws.unmarshal_render, Option.bind_some, SealedAccess.ofJ_toJ toyLaws]
  have hd : toyD1.accessCryptor.decrypt toyPrims Access.ofJ (J.ofBytes (some (mkV4 b).1)) (sealedAcc toyPrims toyD1 (mkV4 b) a (kk c) (nn c)).wrappedKey.bytes
      (sealedAcc toyPrims toyD1 (mkV4 b) a (kk c) (nn c)).ciphertext.bytes = .ok a.stored := by
    simp only [sealedAcc, NBytes.bytes, Option.getD_some]
    rw [Cryptor.decrypt_box toyLaws, Access.ofJ_toJ]
    rfl
  constructor
  · rintro ⟨sa, h, h'⟩
    cases h
    rw [hd] at h'
    cases h'
    rfl
  · rintro rfl
    exact ⟨_, rfl, hd⟩

theorem toyD1_who {t : GoString} {tr : List Event} {id : Identity} (ht : t ≠ []) (h : Yields (toyD1.idProvider t) tr (.ok id)) : tr = [] ∧ id = toyWho t := by
  simp only [toyD1, if_neg ht] at h
  obtain ⟨h1, h2⟩ := yields_ret.mp h
  exact ⟨h1, Outcome.ok.inj h2⟩

/-- C111 applies: `[9]` reads the contents of the update, and no backup makes it read those from before. -/
theorem C111_case : DrawnApart (twoHist b o o') ∧ Yields (toyD1.decrypt toyPrims [9] (mkV4 b)) (proj 3 (twoHist b o o')) (.ok o') ∧
    (∀ tr id, Yields (toyD1.idProvider [9]) tr (.ok id) → ∀ x ∈ id.getIDs, x = [9] ∨ x = [50]) ∧
    (∀ k a, Founds toyPrims toyD1 (twoCalls b o o' 0) (proj 0 (twoHist b o o')) (mkV4 b) k a → ∀ x, a.groups.has x = true →
      ¬ (sanitize x = [9] ∨ sanitize x = [50])) ∧
    (∀ i t gs g H' k a', twoCalls b o o' i = .addGroups t (mkV4 b) gs → g ∈ gs → (sanitize g = [9] ∨ sanitize g = [50]) → H' <+: twoHist b o o' →
      Passed toyPrims toyD1 t scopeModifyAccessGroups (mkV4 b) (proj i H') a'.stored → ¬ ListOf toyPrims toyD1 (twoCalls b o o') (mkV4 b) 0 k H' a') := by
  refine ⟨fun i j k hi hj => ?_, ?_, fun tr id h x hx => ?_, fun k a h x hx => ?_, fun i t gs g H' k a' hc hg hG hp hpass hl => ?_⟩
  · rcases twoHist_drew b o o' hi with ⟨rfl, rfl | rfl⟩ | ⟨rfl, rfl | rfl⟩ | ⟨rfl, rfl⟩ <;>
      rcases twoHist_drew b o o' hj with ⟨rfl, h | h⟩ | ⟨rfl, h | h⟩ | ⟨rfl, h⟩ <;>
      first
      | rfl
      | (exfalso; revert h; decide)
  · rw [yields_decrypt_ok]
    refine ⟨[evGet (mkV4 b) dtAccess (accRec b list2 5)], list2.stored, objRec b o' 3, sealedObj toyPrims (mkV4 b) o' (kk 3) (nn 3), rfl,
      ⟨[], toyWho [9], accRec b list2 5, rfl, .ret _, by decide, (accepts_accRec b).mpr rfl, [9], by decide, by decide +kernel, by decide⟩, ?_, ?_, rfl⟩
    · rw [objRec, toyLaws.unmarshal_render, Option.bind_some, SealedObject.ofJ_toJ toyLaws]
    · have := Cryptor.decrypt_box toyLaws toyD1.objectCryptor J.toBytes (objectAad (mkV4 b) o'.associatedData) (J.ofBytes o'.plaintext) (kk 3) (nn 3)
      simp only [san_ofBytes, toBytes_ofBytes] at this
      exact this
  · obtain ⟨-, rfl⟩ := toyD1_who (by decide) h
    revert x
    decide
  · obtain ⟨trI, id, b', n, k', n', h1, -, rfl, -⟩ := h
    obtain ⟨-, rfl⟩ := toyD1_who (by decide) h1
    have : ∀ x ∈ [[8], [7]], ¬ (sanitize x = [9] ∨ sanitize x = [50]) := by decide
    refine this x ?_
    simp only [firstAccess, toyWho, GoSet.has, decide_eq_true_eq] at hx
    simpa [mem_setInsert] using hx
  · match i, hc with
    | 0, hc => cases hc
    | 1, hc => cases hc
    | (i + 3), hc => cases hc
    | 2, hc =>
      cases hc
      obtain ⟨trI, id, bytes, h1, h2, -, h3, -⟩ := hpass
      obtain ⟨rfl, -⟩ := toyD1_who (by decide) h2
      have h4 : [evGet (mkV4 b) dtAccess bytes] <+: proj 2 (twoHist b o o') := by
        have := proj_prefix 2 hp
        rw [h1] at this
        exact this
      have h5 : bytes = accRec b list1 4 := by
        have : proj 2 (twoHist b o o') = evGet (mkV4 b) dtAccess (accRec b list1 4) :: (proj 2 (twoHist b o o')).tail := rfl
        rw [this, List.cons_prefix_cons] at h4
        exact (evGet_inj h4.1).2.2
      subst h5
      have h6 := congrArg Access.wrappedDEK ((accepts_accRec b).mp h3)
      have h7 : a'.stored.wrappedDEK = _ := hl.key
      rw [h7] at h6
      have h8 : k = kk 3 := Subtype.ext (kwpBox_inj toyLaws _ _ _ k.2 (kk 3).2 (Option.some.inj h6))
      subst h8
      rcases twoHist_drew b o o' ((proj_prefix 0 hp).subset hl.drew) with ⟨-, h | h⟩ | ⟨h, -⟩ | ⟨h, -⟩ <;> revert h <;> decide

end
end D1
