import Verif.Proofs.Mirror
import Verif.Props.Passwords
/-!
# C106: access lists are secret

The adversary is the IO Provider and the clock, decides which calls are made, on whose behalf, and how their steps are
interleaved, and sees all requests and all results.  It knows all keys except the access key.  With each call it proposes other
names for the users and groups of the call, such that names are the same on one side whenever they are on the other, and in all
calls of one game the names are replaced, or they are not.  The groups that `GetAccessGroups` finds are shown by their left
names.  It has to tell whether names were replaced.
-/
namespace D1
open Spec Prog

/-! ## Specification -/

/-- An identity under other names. -/
def Identity.renamed (f : GoString → GoString) (i : Identity) : Identity :=
  ⟨f i.id, i.scopes, i.groups.map fun e => (f e.1, ⟨f e.2.id, e.2.scopes⟩)⟩

/-- A call with other names of groups. -/
def _root_.D1.Spec.Call.renamed (f : GoString → GoString) : Call → Call
  | .encrypt t o gs => .encrypt t o (gs.map f)
  | .addGroups t oid gs => .addGroups t oid (gs.map f)
  | .removeGroups t oid gs => .removeGroups t oid (gs.map f)
  | c => c

/-- The groups a call takes. -/
def _root_.D1.Spec.Call.groupNames : Call → List GoString
  | .encrypt _ _ gs | .addGroups _ _ gs | .removeGroups _ _ gs => gs
  | _ => []

/-- A call on behalf of somebody, and the names of the right side. -/
abbrev GroupCall : Type := AsWhom × (GoString → GoString)

/-- The names in a call. -/
def GroupCall.names (x : GroupCall) : List GoString :=
  (match x.1.1 with
    | .error _ => []
    | .ok i => i.id :: i.groups.map Prod.fst) ++ x.1.2.groupNames

/-- The names that were proposed together. -/
def groupPairs (xs : List GroupCall) : List (GoString × GoString) := xs.flatMap fun x => x.names.map fun g => (g, x.2 g)

/-- What can be proposed: names that agree on one side with earlier ones whenever they do on the other, are valid text, and
equally long in JSON. -/
structure FairGroups (xs : List GroupCall) (x : GroupCall) : Prop where
  paired : ∀ p ∈ groupPairs (xs ++ [x]), ∀ q ∈ groupPairs (xs ++ [x]), p.1 = q.1 ↔ p.2 = q.2
  text : ∀ g ∈ x.names, sanitize g = g ∧ sanitize (x.2 g) = x.2 g ∧ (renderStr g).length = (renderStr (x.2 g)).length

/-- The call of one side. -/
def groupCall (right : Bool) (x : GroupCall) : AsWhom :=
  bif right then (x.1.1.map (Identity.renamed x.2), x.1.2.renamed x.2) else x.1

/-- What is shown of a result: left names. -/
def groupShown {R : Type} (report : Res → R) (right : Bool) (r : Res) (xs : List GroupCall) : R :=
  match right, r with
  | true, .groups h => report (.groups fun g => (groupPairs xs).any fun p => p.1 = g && h p.2)
  | _, r => report r

/-- The calls of one side. -/
def groupContest {R : Type} (P : Prims) (d : D1) (report : Res → R) (right : Bool) (aek : BytesN 32) : Contest GroupCall R where
  fair := FairGroups
  prog x := (callProg P (d.withAek aek (groupCall right x).1) (groupCall right x).2).bind fun r => .ret (groupShown report right r)

/-! ## Lists of names -/

section
variable {r : GoString → GoString → Prop} (hr : ∀ a a' b b', r a a' → r b b' → (a = b ↔ a' = b'))
include hr

theorem peer_mem {l l' : List GoString} (h : List.Forall₂ r l l') {x x' : GoString} (hx : r x x') : x ∈ l ↔ x' ∈ l' := by
  induction h with
  | nil => simp
  | cons h _ ih => rw [List.mem_cons, List.mem_cons, ih, hr _ _ _ _ hx h]

theorem peer_insert {l l' : List GoString} (h : List.Forall₂ r l l') {x x' : GoString} (hx : r x x') :
    List.Forall₂ r (setInsert l x) (setInsert l' x') := by
  unfold setInsert
  by_cases hm : x ∈ l
  · rwa [if_pos hm, if_pos ((peer_mem hr h hx).mp hm)]
  · rw [if_neg hm, if_neg fun h' => hm ((peer_mem hr h hx).mpr h')]
    exact List.rel_append h (.cons hx .nil)

theorem peer_foldl {xs xs' : List GoString} (hx : List.Forall₂ r xs xs') :
    ∀ {l l' : List GoString}, List.Forall₂ r l l' → List.Forall₂ r (xs.foldl setInsert l) (xs'.foldl setInsert l') := by
  induction hx with
  | nil => exact fun h => h
  | cons h _ ih => exact fun hl => ih (peer_insert hr hl h)

theorem peer_erase {l l' : List GoString} (h : List.Forall₂ r l l') {x x' : GoString} (hx : r x x') :
    List.Forall₂ r (setErase l x) (setErase l' x') := by
  unfold setErase
  induction h with
  | nil => exact .nil
  | @cons a a' _ _ h _ ih =>
    by_cases hm : a = x
    · rw [List.filter_cons_of_neg (by simpa using hm), List.filter_cons_of_neg (by simpa using (hr _ _ _ _ h hx).mp hm)]
      exact ih
    · rw [List.filter_cons_of_pos (by simpa using hm),
        List.filter_cons_of_pos (by simpa using fun e => hm ((hr _ _ _ _ h hx).mpr e))]
      exact .cons h ih

theorem peer_erases {xs xs' : List GoString} (hx : List.Forall₂ r xs xs') :
    ∀ {l l' : List GoString}, List.Forall₂ r l l' → List.Forall₂ r (xs.foldl setErase l) (xs'.foldl setErase l') := by
  induction hx with
  | nil => exact fun h => h
  | cons h _ ih => exact fun hl => ih (peer_erase hr hl h)

/-- Sets of corresponding names. -/
def PeerSets (r : GoString → GoString → Prop) : GoSet → GoSet → Prop
  | none, none => True
  | some l, some l' => List.Forall₂ r l l'
  | _, _ => False

omit hr in
theorem PeerSets.both {s s' : GoSet} (h : PeerSets r s s') : (s = none ∧ s' = none) ∨ ∃ l l', s = some l ∧ s' = some l' ∧ List.Forall₂ r l l' := by
  cases s with
  | none => cases s' with
    | none => exact .inl ⟨rfl, rfl⟩
    | some _ => exact h.elim
  | some l => cases s' with
    | none => exact h.elim
    | some l' => exact .inr ⟨l, l', rfl, rfl, h⟩

omit hr in
theorem PeerSets.named {s s' : GoSet} (h : PeerSets r s s') {x : GoString} (hx : s.has x = true) : ∃ x', r x x' := by
  obtain ⟨rfl, rfl⟩ | ⟨l, l', rfl, rfl, hl⟩ := h.both
  · exact nomatch hx
  · clear h
    have hm : x ∈ l := by simpa [GoSet.has] using hx
    clear hx
    induction hl with
    | nil => exact nomatch hm
    | cons h _ ih =>
      rcases List.mem_cons.mp hm with rfl | hm
      · exact ⟨_, h⟩
      · exact ih hm

theorem PeerSets.has {s s' : GoSet} (h : PeerSets r s s') {x x' : GoString} (hx : r x x') : s.has x = s'.has x' := by
  obtain ⟨rfl, rfl⟩ | ⟨l, l', rfl, rfl, h⟩ := h.both
  · rfl
  · have := peer_mem hr h hx
    simp only [GoSet.has]
    by_cases hm : x ∈ l
    · simp [hm, this.mp hm]
    · simp [hm, mt this.mpr hm]

theorem PeerSets.add {xs xs' : List GoString} (hx : List.Forall₂ r xs xs') :
    ∀ {s s' : GoSet}, PeerSets r s s' → (addToSet s xs = none ∧ addToSet s' xs' = none) ∨
      ∃ t t', addToSet s xs = some t ∧ addToSet s' xs' = some t' ∧ PeerSets r t t' := by
  induction hx with
  | nil => exact fun h => .inr ⟨_, _, rfl, rfl, h⟩
  | cons h _ ih =>
    intro s s' hs
    obtain ⟨rfl, rfl⟩ | ⟨l, l', rfl, rfl, hl⟩ := hs.both
    · exact .inl ⟨rfl, rfl⟩
    · exact ih (s := some _) (s' := some _) (peer_insert hr hl h)

theorem PeerSets.remove {xs xs' : List GoString} (hx : List.Forall₂ r xs xs') {s s' : GoSet} (h : PeerSets r s s') :
    PeerSets r (removeFromSet s xs) (removeFromSet s' xs') := by
  obtain ⟨rfl, rfl⟩ | ⟨l, l', rfl, rfl, h⟩ := h.both
  · trivial
  · exact peer_erases hr hx h

theorem PeerSets.san (ht : ∀ a a', r a a' → sanitize a = a ∧ sanitize a' = a') {s s' : GoSet} (h : PeerSets r s s') :
    PeerSets r (s.map sanList) (s'.map sanList) := by
  obtain ⟨rfl, rfl⟩ | ⟨l, l', rfl, rfl, h⟩ := h.both
  · trivial
  · refine peer_foldl hr ?_ .nil
    refine List.forall₂_map_left_iff.mpr (List.forall₂_map_right_iff.mpr (h.imp fun a a' ha => ?_))
    rw [(ht a a' ha).1, (ht a a' ha).2]
    exact ha

end

theorem length_members {r : GoString → GoString → Prop} (hl : ∀ a a', r a a' → (renderStr a).length = (renderStr a').length)
    {l l' : List GoString} (h : List.Forall₂ r l l') : ∀ b,
      ((JFields.ofList (l.map fun k => (k, J.obj .nil))).render b).length = ((JFields.ofList (l'.map fun k => (k, J.obj .nil))).render b).length := by
  induction h with
  | nil => intro b; rfl
  | cons h _ ih =>
    intro b
    simp only [List.map_cons, JFields.ofList, JFields.render, List.length_append, ih false, hl _ _ h]

theorem length_set {r : GoString → GoString → Prop} (hl : ∀ a a', r a a' → (renderStr a).length = (renderStr a').length)
    {s s' : GoSet} (h : PeerSets r s s') : (J.ofSet s).render.length = (J.ofSet s').render.length := by
  obtain ⟨rfl, rfl⟩ | ⟨l, l', rfl, rfl, h⟩ := h.both
  · rfl
  · simp only [J.ofSet, J.render, List.length_append, length_members hl h]

/-! ## Names of a game -/

/-- Two names that were proposed together. -/
def PeerNames (ys : List GroupCall) (l r : GoString) : Prop := (l, r) ∈ groupPairs ys

theorem groupPairs_snoc (xs : List GroupCall) (x : GroupCall) : groupPairs (xs ++ [x]) = groupPairs xs ++ x.names.map fun g => (g, x.2 g) := by
  simp [groupPairs]

theorem Legal.peers {ys : List GroupCall} (h : Legal FairGroups ys) :
    ∀ a a' b b', PeerNames ys a a' → PeerNames ys b b' → (a = b ↔ a' = b') := by
  cases h with
  | nil => exact nofun
  | snoc _ hf => exact fun a a' b b' h h' => hf.paired _ h _ h'

theorem Legal.texts {ys : List GroupCall} (h : Legal FairGroups ys) :
    ∀ a a', PeerNames ys a a' → sanitize a = a ∧ sanitize a' = a' ∧ (renderStr a).length = (renderStr a').length := by
  induction h with
  | nil => exact nofun
  | snoc _ hf ih =>
    intro a a' h
    rw [PeerNames, groupPairs_snoc, List.mem_append, List.mem_map] at h
    rcases h with h | ⟨g, hg, h⟩
    · exact ih a a' h
    · obtain ⟨rfl, rfl⟩ := Prod.mk.inj h
      exact hf.text _ hg

/-- Rights that correspond. -/
def PeerAccess (ys : List GroupCall) (a a' : Access) : Prop := PeerSets (PeerNames ys) a.groups a'.groups ∧ a.wrappedDEK = a'.wrappedDEK

/-- Messages that correspond. -/
def AccessPeers (ys : List GroupCall) (m m' : J) : Prop := ∃ a a', PeerAccess ys a a' ∧ m = a.toJ ∧ m' = a'.toJ

/-- Results that correspond. -/
def PeerRes (ys : List GroupCall) : Res → Res → Prop
  | .groups h, .groups h' => (∀ g, h g = true → ∃ g', PeerNames ys g g') ∧ ∀ g g', PeerNames ys g g' → h g = h' g'
  | r, r' => r = r'

/-- Identities that correspond. -/
structure PeerIds (ys : List GroupCall) (i i' : Identity) : Prop where
  scopes : i.scopes = i'.scopes
  id : PeerNames ys i.id i'.id
  groups : List.Forall₂ (fun e e' => PeerNames ys e.1 e'.1 ∧ e.2.scopes = e'.2.scopes) i.groups i'.groups

section
variable {ys : List GroupCall} (hy : Legal FairGroups ys)
include hy

theorem PeerIds.getIDs {i i' : Identity} (h : PeerIds ys i i') : List.Forall₂ (PeerNames ys) i.getIDs i'.getIDs := by
  refine peer_foldl hy.peers ?_ (.cons h.id .nil)
  exact List.forall₂_map_left_iff.mpr (List.forall₂_map_right_iff.mpr (h.groups.imp fun _ _ h => h.1))

theorem peer_scopes {gs gs' : List (GoString × AccessGroup)}
    (h : List.Forall₂ (fun e e' => PeerNames ys e.1 e'.1 ∧ e.2.scopes = e'.2.scopes) gs gs') {x x' : GoString} (hx : PeerNames ys x x') :
    (lookupGroup gs x).map AccessGroup.scopes = (lookupGroup gs' x').map AccessGroup.scopes := by
  induction h with
  | nil => rfl
  | @cons e e' _ _ h _ ih =>
    obtain ⟨k, g⟩ := e
    obtain ⟨k', g'⟩ := e'
    simp only [lookupGroup]
    by_cases hk : k = x
    · rw [if_pos hk, if_pos ((hy.peers _ _ _ _ h.1 hx).mp hk), Option.map_some, Option.map_some]
      exact congrArg some h.2
    · rw [if_neg hk, if_neg fun e => hk ((hy.peers _ _ _ _ h.1 hx).mpr e)]
      exact ih

theorem PeerIds.getIDScope {i i' : Identity} (h : PeerIds ys i i') {x x' : GoString} (hx : PeerNames ys x x') :
    i.getIDScope x = i'.getIDScope x' := by
  unfold Identity.getIDScope
  by_cases hk : x = i.id
  · rw [if_pos hk, if_pos ((hy.peers _ _ _ _ hx h.id).mp hk), h.scopes]
  · rw [if_neg hk, if_neg fun e => hk ((hy.peers _ _ _ _ hx h.id).mpr e)]
    have := peer_scopes hy h.groups hx
    cases h1 : lookupGroup i.groups x <;> cases h2 : lookupGroup i'.groups x' <;> simp_all

omit hy in
theorem peer_any {l l' : List GoString} (h : List.Forall₂ (PeerNames ys) l l') {p p' : GoString → Bool}
    (hp : ∀ x x', PeerNames ys x x' → p x = p' x') : l.any p = l'.any p' := by
  induction h with
  | nil => rfl
  | cons h _ ih => rw [List.any_cons, List.any_cons, ih, hp _ _ h]

variable {P : Prims} (d : D1)

theorem mirror_checkI {i i' : Identity} (hi : PeerIds ys i i') (scope : Scope) (oid : Oid) (sa : SealedAccess) {k k' : Access → IProg Res}
    (hk : ∀ a a', PeerAccess ys a a' → (k a).Mirror (AccessPeers ys) (PeerRes ys) (k' a')) :
    (checkI i scope oid sa k).Mirror (AccessPeers ys) (PeerRes ys) (checkI i' scope oid sa k') := by
  refine ⟨rfl, rfl, rfl, fun e => rfl, ?_⟩
  rintro _ _ ⟨a, a', ha, rfl, rfl⟩
  simp only [readAs, Option.bind_some, Access.ofJ_toJ]
  have hs : PeerAccess ys ⟨a.groups.map sanList, a.wrappedDEK⟩ ⟨a'.groups.map sanList, a'.wrappedDEK⟩ :=
    ⟨ha.1.san hy.peers fun b b' h => ⟨(hy.texts b b' h).1, (hy.texts b b' h).2.1⟩, ha.2⟩
  have hc := peer_any (hi.getIDs hy) (p := fun gid => (Access.mk (a.groups.map sanList) a.wrappedDEK).containsGroups [gid] &&
      (i.getIDScope gid).contains scope) (p' := fun gid => (Access.mk (a'.groups.map sanList) a'.wrappedDEK).containsGroups [gid] &&
      (i'.getIDScope gid).contains scope) fun x x' hx => by
    simp only [Access.containsGroups, List.all_cons, List.all_nil, hs.1.has hy.peers hx, hi.getIDScope hy hx]
  rw [hc]
  split
  · exact hk _ _ hs
  · rfl

/-- Answers of the Identity Provider that correspond. -/
def PeerWho (ys : List GroupCall) : Except Err Identity → Except Err Identity → Prop
  | .error _, .error _ => True
  | .ok i, .ok i' => PeerIds ys i i'
  | _, _ => False

omit hy in
theorem mirror_knowI {w w' : Except Err Identity} (hw : PeerWho ys w w') (scope : Scope) {k k' : Identity → IProg Res}
    (hk : ∀ i i', PeerIds ys i i' → (k i).Mirror (AccessPeers ys) (PeerRes ys) (k' i')) :
    (knowI w scope k).Mirror (AccessPeers ys) (PeerRes ys) (knowI w' scope k') := by
  cases w with
  | error e => cases w' with
    | error e' => rfl
    | ok i' => exact hw.elim
  | ok i => cases w' with
    | error e' => exact hw.elim
    | ok i' =>
      have hi : PeerIds ys i i' := hw
      simp only [knowI, ← hi.scopes]
      split
      · rfl
      · exact hk i i' hi

theorem mirror_guardI {w w' : Except Err Identity} (hw : PeerWho ys w w') (scope : Scope) (oid : Oid) {k k' : Access → IProg Res}
    (hk : ∀ a a', PeerAccess ys a a' → (k a).Mirror (AccessPeers ys) (PeerRes ys) (k' a')) :
    (guardI P w scope oid k).Mirror (AccessPeers ys) (PeerRes ys) (guardI P w' scope oid k') :=
  mirror_knowI hw scope fun _ _ hi => IProg.mirror_after _ fun sa => mirror_checkI hy hi scope oid sa hk

theorem mirror_sealI {a a' : Access} (ha : PeerAccess ys a a') (oid : Oid) {k k' : SealedAccess → IProg Res}
    (hk : ∀ sa, (k sa).Mirror (AccessPeers ys) (PeerRes ys) (k' sa)) :
    (sealI a oid k).Mirror (AccessPeers ys) (PeerRes ys) (sealI a' oid k') := by
  refine ⟨rfl, ⟨a, a', ha, rfl, rfl⟩, ?_, fun r => hk _⟩
  simp only [Access.toJ, J.render, JFields.render, List.length_append, length_set (fun b b' h => (hy.texts b b' h).2.2) ha.1, ha.2]

theorem mirror_addGroups {a a' : Access} (ha : PeerAccess ys a a') {gs gs' : List GoString} (hg : List.Forall₂ (PeerNames ys) gs gs')
    {k k' : Access → IProg Res} (hk : ∀ a a', PeerAccess ys a a' → (k a).Mirror (AccessPeers ys) (PeerRes ys) (k' a')) :
    (IProg.after (Prog.ofPanic (a.addGroups gs)) k).Mirror (AccessPeers ys) (PeerRes ys) (.after (Prog.ofPanic (a'.addGroups gs')) k') := by
  unfold Access.addGroups
  rcases PeerSets.add hy.peers hg ha.1 with ⟨h, h'⟩ | ⟨t, t', h, h', ht⟩
  · rw [h, h']; trivial
  · rw [h, h']; exact hk _ _ ⟨ht, ha.2⟩

omit hy in
theorem peer_names {x : GroupCall} (h : ∀ g ∈ x.names, PeerNames ys g (x.2 g)) :
    List.Forall₂ (PeerNames ys) x.1.2.groupNames (x.1.2.groupNames.map x.2) := by
  have h' : ∀ g ∈ x.1.2.groupNames, PeerNames ys g (x.2 g) := fun g hg => h g (List.mem_append_right _ hg)
  generalize x.1.2.groupNames = l at h'
  induction l with
  | nil => exact .nil
  | cons g l ih => exact .cons (h' g (by simp)) (ih fun g hg => h' g (by simp [hg]))

omit hy in
theorem peer_who {x : GroupCall} (h : ∀ g ∈ x.names, PeerNames ys g (x.2 g)) : PeerWho ys x.1.1 (x.1.1.map (Identity.renamed x.2)) := by
  obtain ⟨⟨w, c⟩, f⟩ := x
  cases w with
  | error e => trivial
  | ok i =>
    have h' : ∀ e ∈ i.groups, PeerNames ys e.1 (f e.1) := fun e he =>
      h e.1 (List.mem_append_left _ (List.mem_cons_of_mem _ (List.mem_map_of_mem he)))
    refine ⟨rfl, h i.id (List.mem_append_left _ List.mem_cons_self), ?_⟩
    show List.Forall₂ _ i.groups (i.groups.map _)
    generalize i.groups = l at h'
    induction l with
    | nil => exact .nil
    | cons e l ih => exact .cons ⟨h' e (by simp), rfl⟩ (ih fun e he => h' e (by simp [he]))

theorem mirror_accessI {x : GroupCall} (h : ∀ g ∈ x.names, PeerNames ys g (x.2 g)) :
    (accessI P d (groupCall false x)).Mirror (AccessPeers ys) (PeerRes ys) (accessI P d (groupCall true x)) := by
  have hw := peer_who h
  have hn := peer_names h
  obtain ⟨⟨w, c⟩, f⟩ := x
  simp only [groupCall, cond_true, cond_false]
  dsimp only at hw hn
  generalize w.map (Identity.renamed f) = w' at hw
  cases c with
  | encrypt t o gs =>
    refine mirror_knowI hw _ fun i i' hi => IProg.mirror_after _ fun y => ?_
    exact mirror_addGroups (a := newAccess y.2.1) (a' := newAccess y.2.1) hy ⟨List.Forall₂.nil, rfl⟩ (List.rel_append hn (.cons hi.id .nil)) fun a a' ha => mirror_sealI hy ha _ fun sa =>
      IProg.mirror_after _ fun _ => rfl
  | update t oid o =>
    exact mirror_guardI hy hw _ _ fun a a' ha => IProg.mirror_after _ fun r =>
      mirror_sealI (a := ⟨a.groups, some r.1⟩) (a' := ⟨a'.groups, some r.1⟩) hy ⟨ha.1, rfl⟩ _ fun sa =>
      IProg.mirror_after _ fun _ => rfl
  | decrypt t oid =>
    refine mirror_guardI hy hw _ _ fun a a' ha => ?_
    rw [ha.2, IProg.lift, IProg.after_bind]
    refine IProg.mirror_after _ fun so => ?_
    rw [IProg.after_bind]
    exact IProg.mirror_after _ fun o => rfl
  | delete t oid =>
    refine mirror_knowI hw _ fun i i' hi => IProg.mirror_after _ fun r => ?_
    cases r with
    | none => rfl
    | some sa => exact mirror_checkI hy hi _ _ _ fun _ _ _ => IProg.mirror_after _ fun _ => rfl
  | getGroups t oid =>
    refine mirror_guardI hy hw _ _ fun a a' ha => ?_
    exact ⟨fun g hg => ha.1.named hg, fun g g' h => ha.1.has hy.peers h⟩
  | addGroups t oid gs =>
    exact mirror_guardI hy hw _ _ fun a a' ha => mirror_addGroups hy ha hn fun a a' ha => mirror_sealI hy ha _ fun sa =>
      IProg.mirror_after _ fun _ => rfl
  | removeGroups t oid gs =>
    exact mirror_guardI hy hw _ _ fun a a' ha =>
      mirror_sealI (a := a.removeGroups gs) (a' := a'.removeGroups (gs.map f)) hy ⟨ha.1.remove hy.peers hn, ha.2⟩ _ fun sa =>
      IProg.mirror_after _ fun _ => rfl
  | authorize t oid => exact mirror_guardI hy hw _ _ fun a a' ha => rfl

end

theorem IProg.mirror_map {R R' : Type} {B : J → J → Prop} {Q : R → R → Prop} {Q' : R' → R' → Prop} {f f' : R → R'}
    (hf : ∀ a a', Q a a' → Q' (f a) (f' a')) (p : IProg R) : ∀ p', p.Mirror B Q p' → (p.map f).Mirror B Q' (p'.map f') := by
  induction p with
  | op e k ih =>
    intro p' h
    cases p' with
    | op e' k' =>
      obtain ⟨rfl, h⟩ := h
      exact ⟨rfl, fun r => ih r _ (h r)⟩
    | _ => exact h.elim
  | box m aad k ih =>
    intro p' h
    cases p' with
    | box m' aad' k' => exact ⟨h.1, h.2.1, h.2.2.1, fun r => ih r _ (h.2.2.2 r)⟩
    | _ => exact h.elim
  | unbox aad w c k ih =>
    intro p' h
    cases p' with
    | unbox aad' w' c' k' =>
      exact ⟨h.1, h.2.1, h.2.2.1, fun e => ih _ _ (h.2.2.2.1 e), fun m m' hm => ih _ _ (h.2.2.2.2 m m' hm)⟩
    | _ => exact h.elim
  | ret a =>
    intro p' h
    cases p' with
    | ret a' => exact hf a a' h
    | _ => exact h.elim
  | err e =>
    intro p' h
    cases p' with
    | err a' => exact h
    | _ => exact h.elim
  | panic =>
    intro p' h
    cases p' with
    | panic => trivial
    | _ => exact h.elim
  | diverge =>
    intro p' h
    cases p' with
    | diverge => trivial
    | _ => exact h.elim

theorem IProg.bursts_map {R R' : Type} {b : Nat} (f : R → R') (p : IProg R) : ∀ {c}, p.Bursts b c → (p.map f).Bursts b c := by
  induction p with
  | op e k ih => cases e <;> exact fun h r => ih r (h r)
  | box m aad k ih =>
    intro c h
    cases c with
    | zero => exact h.elim
    | succ c => exact fun r => ih r (h r)
  | unbox aad w c k ih =>
    intro c h
    cases c with
    | zero => exact h.elim
    | succ c => exact fun r => ih r (h r)
  | _ => exact fun _ => trivial

theorem peer_shown {R : Type} (report : Res → R) {ys : List GroupCall} {r r' : Res} (h : PeerRes ys r r') :
    groupShown report false r ys = groupShown report true r' ys := by
  cases r with
  | groups m =>
    cases r' with
    | groups m' =>
      refine congrArg (fun m => report (.groups m)) (funext fun g => ?_)
      rw [Bool.eq_iff_iff, List.any_eq_true]
      constructor
      · intro hg
        obtain ⟨g', hg'⟩ := h.1 g hg
        exact ⟨(g, g'), hg', by simp [← h.2 g g' hg', hg]⟩
      · rintro ⟨⟨a, a'⟩, hp, hg⟩
        simp only [Bool.and_eq_true, decide_eq_true_eq] at hg
        obtain ⟨rfl, hg⟩ := hg
        exact (h.2 a a' hp).trans hg
    | _ => exact nomatch h
  | oid o => obtain rfl : _ = r' := h; rfl
  | unit => obtain rfl : _ = r' := h; rfl
  | object o => obtain rfl : _ = r' := h; rfl

/-! ## The theorem -/

/-- A call of one side, with boxes. -/
def namedI {R : Type} (P : Prims) (d : D1) (report : Res → R) (right : Bool) (x : GroupCall) : IProg (List GroupCall → R) :=
  (accessI P d (groupCall right x)).map (groupShown report right)

/-- The game of one side, with boxes. -/
noncomputable def groupTree {R : Type} (P : Prims) (d : D1) (report : Res → R) (A : Spy GroupCall R) (n : Nat) (right : Bool) : IAdv :=
  A.sideTree FairGroups (namedI P d report right) n

/-- C106: whoever can tell which names are used tells wrapped keys from other keys, forges AES-GCM ciphertexts, or tells AES-GCM
ciphertexts apart. -/
theorem C106_groups {P : Prims} (L : P.Laws) (d : D1) {R : Type} (report : Res → R) (A : Spy GroupCall R) (n : Nat) :
    gap (contestGame (groupContest P d report false) A n) (contestGame (groupContest P d report true) A n) ≤
      wrapGap P (toUnwrap P (groupTree P d report A n false) []) + forgeGap P (forger P (groupTree P d report A n false)) +
        sealGap P (picker P (groupTree P d report A n false) (groupTree P d report A n true)) +
        forgeGap P (forger P (groupTree P d report A n true)) + wrapGap P (toUnwrap P (groupTree P d report A n true) []) := by
  have hprog : ∀ right aek x, (groupContest P d report right aek).prog x = (namedI P d report right x).expand P aek := by
    intro right aek x
    rw [namedI, IProg.expand_map, expand_accessI L]
    rfl
  refine contest_gap L (B := AccessPeers) (fair := FairGroups) (C := groupContest P d report false) (C' := groupContest P d report true)
    (S := namedI P d report false) (S' := namedI P d report true) (fun _ => rfl) (fun _ => rfl) (hprog false) (hprog true) (fun xs x hl hf => ?_) A n
  rintro ys ⟨hpre, hy⟩
  refine IProg.mirror_map (Q' := fun f f' : List GroupCall → R => f ys = f' ys) (f := groupShown report false) (f' := groupShown report true)
    (fun r r' h => peer_shown report h) _ _ (mirror_accessI hy d fun g hg => ?_)
  obtain ⟨t, rfl⟩ := hpre
  show (g, x.2 g) ∈ groupPairs (xs ++ [x] ++ t)
  simp only [groupPairs, List.flatMap_append, List.mem_append, List.flatMap_cons, List.flatMap_nil, List.append_nil]
  exact .inl (.inr (List.mem_map.mpr ⟨g, hg, rfl⟩))

/-- C106: the attacks ask at most twice for each move of the adversary. -/
theorem C106_questions {R : Type} (P : Prims) (d : D1) (report : Res → R) (A : Spy GroupCall R) (n : Nat) :
    (∀ right, (toUnwrap P (groupTree P d report A n right) []).Asks (2 * n)) ∧
      (∀ right, (forger P (groupTree P d report A n right)).Asks (2 * n)) ∧
      (picker P (groupTree P d report A n false) (groupTree P d report A n true)).Asks (2 * n) := by
  have h : ∀ right, (groupTree P d report A n right).Asks (2 * n) := fun right => by
    refine bursts_contest A FairGroups (fun xs x s => ?_) n () [] [] [] nofun
    exact IProg.bursts_map _ _ (bursts_accessI d _)
  exact ⟨fun right => asks_toUnwrap P _ _ (h right), fun right kek => asks_toForge P kek _ _ (h right),
    fun kek => asks_toPick P kek _ _ _ (h false)⟩

/-! ## Cases

With an AES-GCM that leaves messages readable the first adversary below guesses right every time, so the right hand side of the
theorem is at least 1.  The second is shown the same names on both sides. -/

/-- The access record that `Encrypt` makes. -/
def recordFor (P : Prims) (d : D1) (oid : Oid) (gs : List GoString) (wrapped : Bytes) (key : BytesN 32) (nonce : BytesN 12) : SealedAccess :=
  ⟨oid, some (gcmBox P key.1 nonce.1 (accessAad oid) (Access.toJ ⟨some (gs.foldl setInsert []), some wrapped⟩).render),
    some (kwpBox P d.accessCryptor.kwp key.1)⟩

theorem encrypt_draws {P : Prims} (L : P.Laws) {d : D1} {t : GoString} {i : Identity} (hv : d.verifyAccess t scopeEncrypt = .ret i)
    (o : Object) (gs : List GoString) : d.encrypt P t o gs =
      (randBytes 16).bind fun b => (randBytes 32).bind fun k1 => (randBytes 12).bind fun n1 => (randBytes 32).bind fun k2 =>
        (randBytes 12).bind fun n2 =>
        (putSealedObject ⟨some (gcmBox P k1.1 n1.1 (objectAad (mkV4 b) o.associatedData).render (J.ofBytes o.plaintext).render), o.associatedData, mkV4 b⟩ false).bind fun _ =>
        (putSealedAccess (recordFor P d (mkV4 b) (gs ++ [i.id]) (kwpBox P d.objectCryptor.kwp k1.1) k2 n2) false).bind fun _ =>
        .ret (mkV4 b) := by
  simp only [D1.encrypt, hv, Prog.bind_eq, Prog.pure_eq, Prog.ret_bind, newV4, Object.seal, Access.seal, Cryptor.encrypt_eq L, Prog.bind_assoc,
    Access.addGroups, newAccess, addToSet_some, Option.map_some, Prog.ofPanic]
  rfl

/-- The user `A`. -/
def userA : Except Err Identity := .ok ⟨[65], scopeAll, []⟩

/-- The name `b` in place of `a`. -/
def bForA (g : GoString) : GoString := if g = [97] then [98] else g

/-- How the text of an access record begins: `{"Groups":{"b"`. -/
def accessHead (gs : List GoString) : Bytes := ([123] ++ renderStr nGroups ++ [58] ++ (J.ofSet (some gs)).render).take 14

/-- Looking for `b` in an access record. -/
def peekAccess (data : Bytes) : Bool :=
  match (toyPrims.unmarshal data).bind (SealedAccess.ofJ toyPrims) with
  | some sa => sa.ciphertext.bytes.take 14 == accessHead [[98], [65]]
  | none => false

/-- The adversary has an object made to which `a` has access, and looks at the access record. -/
def groupSpy : Spy GroupCall Res where
  answer _ e := (Store.exec (fun _ _ => none) (fun _ => none) ⟨0, 0⟩ e).1
  move
    | 2, _ => .begin ((userA, .encrypt [] ⟨some [], some []⟩ [[97]]), bForA)
    | _, _ => .step 0
  guess v := match v with
    | [_, .request _ ⟨.put _ _ data, _⟩] => peekAccess data
    | _ => false

theorem readable_access (right : Bool) (key : BytesN 32) (nonce : BytesN 12) (aad w : Bytes) :
    ((gcmBox toyPrims key.1 nonce.1 aad (Access.toJ ⟨some [bif right then [98] else [97], [65]], some w⟩).render).take 14 ==
      accessHead [[98], [65]]) = right := by
  have h : ∀ gs : List GoString, 14 ≤ ([123] ++ renderStr nGroups ++ [58] ++ (J.ofSet (some gs)).render).length →
      (gcmBox toyPrims key.1 nonce.1 aad (Access.toJ ⟨some gs, some w⟩).render).take 14 = accessHead gs := by
    intro gs hm
    have hw : (Access.toJ ⟨some gs, some w⟩).render = ([123] ++ renderStr nGroups ++ [58] ++ (J.ofSet (some gs)).render) ++
        ([44] ++ renderStr nWrappedDEK ++ [58] ++ (J.ofBytes (some w)).render ++ [125]) := by
      simp [Access.toJ, J.render, JFields.render]
    rw [hw]
    show ((_ ++ _ ++ _) ++ nonce.1).take _ = _
    rw [List.append_assoc, List.append_assoc, List.take_append_of_le_length hm, accessHead]
  cases right
  · rw [h _ (by decide)]; decide
  · rw [h _ (by decide)]; decide

theorem fair_bForA {gs : List GoString} {o : Object} {t : GoString} (hg : gs = [[97]]) : FairGroups [] ((userA, .encrypt t o gs), bForA) := by
  subst hg
  have hn : ∀ t o, GroupCall.names ((userA, .encrypt t o [[97]]), bForA) = [[65], [97]] := fun _ _ => rfl
  have hp : groupPairs ([] ++ [((userA, .encrypt t o [[97]]), bForA)]) = [([65], [65]), ([97], [98])] := rfl
  refine ⟨?_, ?_⟩
  · rw [hp]; decide
  · rw [hn]; dsimp only; decide

theorem C106_case : gap (contestGame (groupContest toyPrims toyD1 id false) groupSpy 3)
    (contestGame (groupContest toyPrims toyD1 id true) groupSpy 3) = 1 := by
  refine gap_sure (fun right => contestGame (groupContest toyPrims toyD1 id right) groupSpy 3) fun right => ?_
  unfold contestGame
  refine Eq.trans (congrArg (PMF.bind _) (funext fun aek => ?_)) (PMF.bind_const _ _)
  rw [contest_begin groupSpy _ (rfl : groupSpy.move 2 [] = _) (fair_bForA rfl)]
  have hc : (groupCall right ((userA, .encrypt [] ⟨some [], some []⟩ [[97]]), bForA)) =
      (userA, .encrypt [] ⟨some [], some []⟩ [bif right then [98] else [97]]) := by cases right <;> rfl
  have hp : (groupContest toyPrims toyD1 id right aek).prog ((userA, .encrypt [] ⟨some [], some []⟩ [[97]]), bForA) =
      ((((toyD1.withAek aek userA).encrypt toyPrims [] ⟨some [], some []⟩ [bif right then [98] else [97]])).bind fun o => .ret (.oid o)).bind fun r =>
        .ret (groupShown id right r) := by
    simp only [groupContest, hc]
    rfl
  rw [hp, encrypt_draws toyLaws (i := ⟨[65], scopeAll, []⟩) rfl]
  simp only [Prog.bind_assoc]
  refine contest_sure groupSpy _ (rfl : groupSpy.move 1 [] = .step 0) rfl fun b => ?_
  refine contest_sure groupSpy _ (rfl : groupSpy.move 1 [] = .step 0) rfl fun k1 => ?_
  refine contest_sure groupSpy _ (rfl : groupSpy.move 1 [] = .step 0) rfl fun n1 => ?_
  refine contest_sure groupSpy _ (rfl : groupSpy.move 1 [] = .step 0) rfl fun k2 => ?_
  refine contest_sure groupSpy _ (rfl : groupSpy.move 1 [] = .step 0) rfl fun n2 => ?_
  have hread := readable_access right k2 n2 (accessAad (mkV4 b)) (kwpBox toyPrims (toyD1.withAek aek userA).objectCryptor.kwp k1.1)
  have hpeek : peekAccess (recordFor toyPrims (toyD1.withAek aek userA) (mkV4 b) ([bif right then [98] else [97]] ++ [[65]])
      (kwpBox toyPrims (toyD1.withAek aek userA).objectCryptor.kwp k1.1) k2 n2).toJ.render = right := by
    rw [peekAccess, toyLaws.unmarshal_render, Option.bind_some, SealedAccess.ofJ_toJ toyLaws]
    cases right <;> exact hread
  generalize recordFor toyPrims (toyD1.withAek aek userA) (mkV4 b) ([bif right then [98] else [97]] ++ [[65]])
      (kwpBox toyPrims (toyD1.withAek aek userA).objectCryptor.kwp k1.1) k2 n2 = sa at hpeek ⊢
  generalize SealedObject.mk _ _ _ = so
  simp only [List.nil_append, List.set_cons_zero]
  rw [contest_put groupSpy _ (.ok ()) (rfl : groupSpy.move 1 [] = .step 0) rfl rfl rfl,
    contest_put groupSpy _ (.ok ()) (rfl : groupSpy.move 0 _ = .step 0) rfl rfl rfl]
  rw [Spy.contest]
  simp only [groupSpy, List.nil_append, List.singleton_append]
  rw [hpeek]

theorem unseal_record {P : Prims} (L : P.Laws) (d : D1) (oid : Oid) (gs : List GoString) (w : Bytes) (key : BytesN 32) (nonce : BytesN 12) :
    (recordFor P d oid gs w key nonce).unseal P d.accessCryptor = .ok ⟨some (sanList (gs.foldl setInsert [])), some w⟩ := by
  have := Cryptor.decrypt_box L d.accessCryptor Access.ofJ (.ofBytes (some oid.1)) (Access.toJ ⟨some (gs.foldl setInsert []), some w⟩) key nonce
  rw [Access.ofJ_toJ] at this
  exact this

/-- An ID from its bytes. -/
def oidOf (b : Bytes) : Oid := if h : b.length = 16 then ⟨b, h⟩ else nilOid

theorem oidOf_eq (o : Oid) : oidOf o.1 = o := dif_pos o.2

/-- The adversary has an object made to which `a` has access, and asks who has access. -/
def groupReader : Spy GroupCall Res where
  answer v e := match v, e with
    | [_, .request _ ⟨.put _ _ data, _⟩], .get _ _ => .ok data
    | _, e => (Store.exec (fun _ _ => none) (fun _ => none) ⟨0, 0⟩ e).1
  move
    | 5, _ => .begin ((userA, .encrypt [] ⟨some [], some []⟩ [[97]]), bForA)
    | 2, [_, .request _ ⟨.put x _ _, _⟩] => .begin ((userA, .getGroups [] (oidOf x)), bForA)
    | 1, _ => .step 1
    | 0, _ => .step 1
    | _, _ => .step 0
  guess v := match v with
    | [_, _, _, .result _ (.ok (.groups h))] => h [97] && h [65] && !h [98]
    | _ => false

/-- C106: on both sides `a` is shown to have access. -/
theorem C106_shown (right : Bool) : contestGame (groupContest toyPrims toyD1 id right) groupReader 6 = PMF.pure true := by
  unfold contestGame
  refine Eq.trans (congrArg (PMF.bind _) (funext fun aek => ?_)) (PMF.bind_const _ _)
  rw [contest_begin groupReader _ (rfl : groupReader.move 5 [] = _) (fair_bForA rfl)]
  have hc : (groupCall right ((userA, .encrypt [] ⟨some [], some []⟩ [[97]]), bForA)) =
      (userA, .encrypt [] ⟨some [], some []⟩ [bif right then [98] else [97]]) := by cases right <;> rfl
  have hp : (groupContest toyPrims toyD1 id right aek).prog ((userA, .encrypt [] ⟨some [], some []⟩ [[97]]), bForA) =
      ((((toyD1.withAek aek userA).encrypt toyPrims [] ⟨some [], some []⟩ [bif right then [98] else [97]])).bind fun o => .ret (.oid o)).bind fun r =>
        .ret (groupShown id right r) := by
    simp only [groupContest, hc]
    rfl
  rw [hp, encrypt_draws toyLaws (i := ⟨[65], scopeAll, []⟩) rfl]
  simp only [Prog.bind_assoc]
  refine contest_sure groupReader _ (rfl : groupReader.move 4 [] = .step 0) rfl fun b => ?_
  refine contest_sure groupReader _ (rfl : groupReader.move 4 [] = .step 0) rfl fun k1 => ?_
  refine contest_sure groupReader _ (rfl : groupReader.move 4 [] = .step 0) rfl fun n1 => ?_
  refine contest_sure groupReader _ (rfl : groupReader.move 4 [] = .step 0) rfl fun k2 => ?_
  refine contest_sure groupReader _ (rfl : groupReader.move 4 [] = .step 0) rfl fun n2 => ?_
  have hu := unseal_record toyLaws (toyD1.withAek aek userA) (mkV4 b) ([bif right then [98] else [97]] ++ [[65]])
      (kwpBox toyPrims (toyD1.withAek aek userA).objectCryptor.kwp k1.1) k2 n2
  have ho : (recordFor toyPrims (toyD1.withAek aek userA) (mkV4 b) ([bif right then [98] else [97]] ++ [[65]])
      (kwpBox toyPrims (toyD1.withAek aek userA).objectCryptor.kwp k1.1) k2 n2).oid = mkV4 b := rfl
  generalize recordFor toyPrims (toyD1.withAek aek userA) (mkV4 b) ([bif right then [98] else [97]] ++ [[65]])
      (kwpBox toyPrims (toyD1.withAek aek userA).objectCryptor.kwp k1.1) k2 n2 = sa at hu ho ⊢
  generalize SealedObject.mk _ _ _ = so
  simp only [List.nil_append, List.set_cons_zero]
  rw [contest_put groupReader _ (.ok ()) (rfl : groupReader.move 4 [] = .step 0) rfl rfl rfl,
    contest_put groupReader _ (.ok ()) (rfl : groupReader.move 3 _ = .step 0) rfl rfl rfl]
  have ha : (toyD1.withAek aek userA).authorizeAccess toyPrims ⟨[65], scopeAll, []⟩ scopeGetAccessGroups sa =
      .ok ⟨some (sanList (([bif right then [98] else [97]] ++ [[65]] : List GoString).foldl setInsert [])),
        some (kwpBox toyPrims (toyD1.withAek aek userA).objectCryptor.kwp k1.1)⟩ := by
    rw [D1.authorizeAccess, hu]
    cases right <;> exact if_pos rfl
  obtain ⟨k, hk, hk'⟩ := guard_get toyLaws (t := []) (d := toyD1.withAek aek userA) rfl ha fun a =>
    Prog.ret (groupShown (R := Res) id right (.groups a.groups.has))
  have hf : FairGroups [((userA, .encrypt [] ⟨some [], some []⟩ [[97]]), bForA)] ((userA, .getGroups [] (oidOf sa.oid.1)), bForA) := by
    have hp : groupPairs ([((userA, .encrypt [] ⟨some [], some []⟩ [[97]]), bForA)] ++ [((userA, .getGroups [] (oidOf sa.oid.1)), bForA)]) =
      [([65], [65]), ([97], [98]), ([65], [65])] := rfl
    have hn : GroupCall.names ((userA, .getGroups [] (oidOf sa.oid.1)), bForA) = [[65]] := rfl
    refine ⟨?_, ?_⟩
    · rw [hp]; decide
    · rw [hn]; dsimp only; decide
  rw [contest_begin groupReader _ (rfl : groupReader.move 2 _ = _) hf]
  have hp : (groupContest toyPrims toyD1 id right aek).prog ((userA, .getGroups [] (oidOf sa.oid.1)), bForA) =
    .op (.get sa.oid.1 dtAccess) k := by
    have hc : groupCall right ((userA, .getGroups [] (oidOf sa.oid.1)), bForA) = (userA, .getGroups [] sa.oid) := by
      rw [oidOf_eq]; cases right <;> rfl
    simp only [groupContest, hc, callProg, getAccessGroups_eq, Prog.bind_assoc, Prog.ret_bind]
    exact hk
  rw [hp, contest_get groupReader _ (.ok sa.toJ.render) (rfl : groupReader.move 1 _ = .step 1) rfl rfl rfl,
    contest_result groupReader _ (rfl : groupReader.move 0 _ = .step 1) rfl hk', Spy.contest]
  cases right <;> exact congrArg PMF.pure rfl

end D1
