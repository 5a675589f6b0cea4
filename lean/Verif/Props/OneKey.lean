import Verif.Props.SecretScopes
import Verif.Proofs.OneKey
import Verif.Props.Outsiders
import Verif.Props.Passwords
import Verif.Props.Identifiers
import Verif.Props.GroupNames
import Verif.Props.Planted
/-!
# C108: one key is enough

The attacks on AES-GCM in C95 to C107, C112 and C116 have many messages encrypted, each with a key of its own.  Here they are turned into
attacks that have a single message encrypted, with a single key.
-/
namespace D1

open Spec Prog

/-- C108: telling apart ciphertexts under `n` keys is at most as easy as, together, `n` attacks on a single key. -/
theorem C108_secrecy (P : Prims) {n : Nat} {t : OAdv SealAsk SealAsk.Ans} (ht : t.Makes SealAsk.encrypts n) :
    sealGap P t ≤ ∑ h ∈ Finset.range n, sealGap P (sealWith P h t []) := sealGap_le P ht

/-- C108: so are forgeries. -/
theorem C108_forgeries (P : Prims) {n : Nat} {t : OAdv ForgeAsk ForgeAsk.Ans} (ht : t.Makes ForgeAsk.encrypts n) :
    forgeGap P t ≤ ∑ h ∈ Finset.range n, forgeGap P (forgeWith P h t []) := forgeGap_le P ht

/-- C108: these attacks have one message encrypted, and ask no more questions. -/
theorem C108_questions (P : Prims) (h : Nat) :
    (∀ t, (sealWith P h t []).Makes SealAsk.encrypts 1 ∧ ∀ n, t.Asks n → (sealWith P h t []).Asks n) ∧
    ∀ t, (forgeWith P h t []).Makes ForgeAsk.encrypts 1 ∧ ∀ n, t.Asks n → (forgeWith P h t []).Asks n :=
  ⟨fun t => ⟨(makes_sealWith P h t []).mono (by simp), fun _ => asks_sealWith P h t []⟩,
    fun t => ⟨(makes_forgeWith P h t []).mono (by simp), fun _ => asks_forgeWith P h t []⟩⟩

/-- C108: contents are secret from those without access (C107), but for attacks on the wrapping key and attacks on a single key of
AES-GCM. -/
theorem C108_outsiders {P : Prims} (L : P.Laws) (d : D1) (A : Spy GuestCall Res) (n : Nat) :
    gap (guestGame P d false A n) (guestGame P d true A n) ≤
      wrapGap P (guestWrap P d A n false) + wrapGap P (guestWrap P d A n true) +
      wrapGap P (guestUnwrap P d A n false) + wrapGap P (guestUnwrap P d A n true) +
      ∑ h ∈ Finset.range n, sealGap P (sealWith P h (guestSeal P d A n) []) +
      ∑ h ∈ Finset.range (2 * n), (forgeGap P (forgeWith P h (guestForge P d A n false) []) +
        forgeGap P (forgeWith P h (guestForge P d A n true) [])) := by
  have hb := C107_outsiders L d A n
  obtain ⟨hs, hq⟩ := C107_questions (P := P) d A n
  have h1 := C108_secrecy P (makes_of_asks SealAsk.encrypts hs)
  have h2 := C108_forgeries P (makes_of_asks ForgeAsk.encrypts (hq false).2.2)
  have h3 := C108_forgeries P (makes_of_asks ForgeAsk.encrypts (hq true).2.2)
  rw [Finset.sum_add_distrib]
  linarith

theorem sealGap_one (P : Prims) {n : Nat} {t : OAdv SealAsk SealAsk.Ans} (ht : t.Asks n) :
    sealGap P t ≤ ∑ h ∈ Finset.range n, sealGap P (sealWith P h t []) := C108_secrecy P (makes_of_asks _ ht)

theorem forgeGap_one (P : Prims) {n : Nat} {t : OAdv ForgeAsk ForgeAsk.Ans} (ht : t.Asks n) :
    forgeGap P t ≤ ∑ h ∈ Finset.range n, forgeGap P (forgeWith P h t []) := C108_forgeries P (makes_of_asks _ ht)

section
variable {P : Prims} (L : P.Laws) (n : Nat)
include L

/-- C108 applied to the secrecy of contents (C95). -/
theorem C108_contents (d : D1) {R : Type} (report : Res → R) (A : Spy CallPair (Reply R)) :
    gap (spyGame (objectGame P d report false) A n) (spyGame (objectGame P d report true) A n) ≤
      wrapGap P (wrapAttack P objectPairs (objectS P d report) A n false) +
        ∑ h ∈ Finset.range n, sealGap P (sealWith P h (sealAttack P objectPairs (objectS P d report) A n) []) +
        wrapGap P (wrapAttack P objectPairs (objectS P d report) A n true) := by
  have h := C95_contents L d report A n
  have h1 := sealGap_one P (C95_questions P d report A n).1
  linarith

/-- C108 applied to the secrecy of tokens (C96). -/
theorem C108_tokens (d : D1) {R : Type} (report : SealedToken → R) (A : Spy TokenCall (Reply R)) :
    gap (spyGame (tokenGame P d report false) A n) (spyGame (tokenGame P d report true) A n) ≤
      wrapGap P (wrapAttack P tokenPairs (tokenS P report) A n false) +
        ∑ h ∈ Finset.range n, sealGap P (sealWith P h (sealAttack P tokenPairs (tokenS P report) A n) []) +
        wrapGap P (wrapAttack P tokenPairs (tokenS P report) A n true) := by
  have h := C96_contents L d report A n
  have h1 := sealGap_one P (C96_questions P report A n).1
  linarith

/-- C108 applied to the secrecy of access lists (C106). -/
theorem C108_groups (d : D1) {R : Type} (report : Res → R) (A : Spy GroupCall R) :
    gap (contestGame (groupContest P d report false) A n) (contestGame (groupContest P d report true) A n) ≤
      wrapGap P (toUnwrap P (groupTree P d report A n false) []) + wrapGap P (toUnwrap P (groupTree P d report A n true) []) +
      ∑ h ∈ Finset.range (2 * n), (forgeGap P (forgeWith P h (forger P (groupTree P d report A n false)) []) +
        sealGap P (sealWith P h (picker P (groupTree P d report A n false) (groupTree P d report A n true)) []) +
        forgeGap P (forgeWith P h (forger P (groupTree P d report A n true)) [])) := by
  have h := C106_groups L d report A n
  obtain ⟨-, q1, q2⟩ := C106_questions P d report A n
  have h1 := forgeGap_one P (q1 false)
  have h2 := forgeGap_one P (q1 true)
  have h3 := sealGap_one P q2
  rw [Finset.sum_add_distrib, Finset.sum_add_distrib]
  linarith

/-- C108 applied to the secrecy of scopes (C116). -/
theorem C108_scopes (s : Standalone) {R : Type} (report : DirOut → R) (g : Bool) (A : Spy ScopeCall R) :
    gap (contestGame (scopeContest P s report g false) A n) (contestGame (scopeContest P s report g true) A n) ≤
      wrapGap P (toUnwrap P (scopeTree P s report g A n false) []) + wrapGap P (toUnwrap P (scopeTree P s report g A n true) []) +
      ∑ h ∈ Finset.range (2 * n), (forgeGap P (forgeWith P h (forger P (scopeTree P s report g A n false)) []) +
        sealGap P (sealWith P h (picker P (scopeTree P s report g A n false) (scopeTree P s report g A n true)) []) +
        forgeGap P (forgeWith P h (forger P (scopeTree P s report g A n true)) [])) := by
  have h := C116_scopes L s report g A n
  obtain ⟨-, q1, q2⟩ := C116_questions P s report g A n
  have h1 := forgeGap_one P (q1 false)
  have h2 := forgeGap_one P (q1 true)
  have h3 := sealGap_one P q2
  rw [Finset.sum_add_distrib, Finset.sum_add_distrib]
  linarith

/-- C108 applied to the secrecy of identifiers (C105). -/
theorem C108_identifiers (i : SecureIndex) (fuel : Nat) {R : Type} (report : IxRes → R) (A : Spy IdCall R) :
    gap (contestGame (idContest P i fuel report false) A n) (contestGame (idContest P i fuel report true) A n) ≤
      kdfGap P (idKdf P i fuel report A n false) + kdfGap P (idKdf P i fuel report A n true) +
        ∑ m ∈ Finset.range n,
          (wrapGap P (toUnwrap P (idTree P i fuel report A n m false) []) + wrapGap P (toUnwrap P (idTree P i fuel report A n m true) []) +
            ∑ h ∈ Finset.range (2 * n), (forgeGap P (forgeWith P h (forger P (idTree P i fuel report A n m false)) []) +
              sealGap P (sealWith P h (picker P (idTree P i fuel report A n m false) (idTree P i fuel report A n m true)) []) +
              forgeGap P (forgeWith P h (forger P (idTree P i fuel report A n m true)) []))) := by
  refine (C105_identifiers L i fuel report A n).trans (add_le_add_right (Finset.sum_le_sum fun m _ => ?_) _)
  obtain ⟨-, q1, q2⟩ := C105_questions P i fuel report A n m
  have h1 := forgeGap_one P (q1 false)
  have h2 := forgeGap_one P (q1 true)
  have h3 := sealGap_one P q2
  rw [Finset.sum_add_distrib, Finset.sum_add_distrib]
  linarith

/-- C108 applied to the authenticity of contents (C98). -/
theorem C108_authentic (d : D1) (A : Spy Call Res) : chance (trialGame (fun kek => callProg P (d.withKek kek)) objectTerms A n) ≤
    wrapGap P (unwrapAttack P (objectI P d) objectTerms A n) +
      ∑ h ∈ Finset.range n, forgeGap P (forgeWith P h (forgeAttack P (objectI P d) objectTerms A n) []) := by
  have h := C98_objects L d A n
  have h1 := forgeGap_one P (C98_questions P d A n).2
  linarith

/-- C108 applied to what the index returns (C112). -/
theorem C108_planted (i : SecureIndex) (hi : OnlyReads i.idProvider) (fuel : Nat) (A : Spy IxCall IxRes) :
    chance (trialGame (fun key => ixProg P (i.withKey key) fuel) entryTerms A n) ≤
      kdfGap P (plantKdf P i fuel A n) + ∑ m ∈ Finset.range n, (wrapGap P (toUnwrap P (plantTree P i fuel A n m) []) +
        ∑ h ∈ Finset.range (2 * n), forgeGap P (forgeWith P h (forger P (plantTree P i fuel A n m)) [])) := by
  refine (C112_planted L i hi fuel A n).trans (add_le_add_right (Finset.sum_le_sum fun m _ => ?_) _)
  have h1 := forgeGap_one P (C112_questions P i fuel A n m).2
  linarith

/-- C108 applied to rights (C99). -/
theorem C108_rights (d : D1) (A : Spy AsWhom Res) : chance (trialGame (fun aek x => callProg P (d.withAek aek x.1) x.2) accessTerms A n) ≤
    wrapGap P (unwrapAttack P (accessI P d) accessTerms A n) +
      ∑ h ∈ Finset.range (2 * n), forgeGap P (forgeWith P h (forgeAttack P (accessI P d) accessTerms A n) []) := by
  have h := C99_rights L d A n
  have h1 := forgeGap_one P (C99_questions (P := P) d A n).2
  linarith

/-- C108 applied to the authenticity of tokens (C100). -/
theorem C108_issued (d : D1) (A : Spy TokenUse TokenRes) : chance (trialGame (fun tek => tokenUse P (d.withTek tek)) tokenTerms A n) ≤
    wrapGap P (unwrapAttack P (tokenI P) tokenTerms A n) +
      ∑ h ∈ Finset.range n, forgeGap P (forgeWith P h (forgeAttack P (tokenI P) tokenTerms A n) []) := by
  have h := C100_tokens L d A n
  have h1 := forgeGap_one P (C100_questions P A n).2
  linarith

/-- C108 applied to sessions (C101). -/
theorem C108_sessions (s : Standalone) (A : Spy DirCall DirOut) : chance (trialGame (fun tek => dirCall P (s.withTek tek)) (sessionTerms P) A n) ≤
    wrapGap P (unwrapAttack P (dirI P s) (sessionTerms P) A n) +
      ∑ h ∈ Finset.range n, forgeGap P (forgeWith P h (forgeAttack P (dirI P s) (sessionTerms P) A n) []) := by
  have h := C101_sessions L s A n
  have h1 := forgeGap_one P (C101_questions P s A n).2
  linarith

/-- C108 applied to user records (C102). -/
theorem C108_users (s : Standalone) (A : Spy DirCall DirOut) : chance (trialGame (fun uek => dirCall P (s.withUek uek)) (userTerms P s) A n) ≤
    wrapGap P (unwrapAttack P (grantI P s) (userTerms P s) A n) +
      ∑ h ∈ Finset.range (2 * n), forgeGap P (forgeWith P h (forgeAttack P (grantI P s) (userTerms P s) A n) []) := by
  have h := C102_users L s A n
  have h1 := forgeGap_one P (C102_questions P s A n).2
  linarith

/-- C108 applied to group records (C103). -/
theorem C108_group_records (s : Standalone) (A : Spy DirCall DirOut) : chance (trialGame (fun gek => dirCall P (s.withGek gek)) groupTerms A n) ≤
    wrapGap P (unwrapAttack P (scopeI P s) groupTerms A n) +
      ∑ h ∈ Finset.range (2 * n), forgeGap P (forgeWith P h (forgeAttack P (scopeI P s) groupTerms A n) []) := by
  have h := C103_groups L s A n
  have h1 := forgeGap_one P (C103_questions P s A n).2
  linarith

/-- C108 applied to passwords (C104). -/
theorem C108_password (s : Standalone) {δ : ℝ} (hδ : ∀ p salt, luck P p salt ≤ δ) (A : Thief DirOut) :
    chance (thiefGame P (fun uek c => (dirCall P (s.withUek uek) c).bind fun r => .ret (keepPassword r)) A n) ≤
      wrapGap P (theftUnwrap P (theftH P s) A n) +
      ∑ h ∈ Finset.range (2 * n), forgeGap P (forgeWith P h (theftForge P (theftH P s) A n) []) +
      ∑ h ∈ Finset.range n, sealGap P (sealWith P h (theftSeal P (theftH P s) A n) []) + n * δ := by
  have h := C104_password L s hδ A n
  obtain ⟨-, q1, q2⟩ := C104_questions P s A n
  have h1 := forgeGap_one P q1
  have h2 := sealGap_one P q2
  linarith

end

/-- C108: with primitives that make no use of their keys, and the adversary of `C107_case`, one of these attacks has an advantage. -/
theorem C108_case : 1 ≤
      wrapGap hollowPrims (guestWrap hollowPrims toyD1 (guestSpy [66]) 6 false) + wrapGap hollowPrims (guestWrap hollowPrims toyD1 (guestSpy [66]) 6 true) +
      wrapGap hollowPrims (guestUnwrap hollowPrims toyD1 (guestSpy [66]) 6 false) +
      wrapGap hollowPrims (guestUnwrap hollowPrims toyD1 (guestSpy [66]) 6 true) +
      ∑ h ∈ Finset.range 6, sealGap hollowPrims (sealWith hollowPrims h (guestSeal hollowPrims toyD1 (guestSpy [66]) 6) []) +
      ∑ h ∈ Finset.range 12, (forgeGap hollowPrims (forgeWith hollowPrims h (guestForge hollowPrims toyD1 (guestSpy [66]) 6 false) []) +
        forgeGap hollowPrims (forgeWith hollowPrims h (guestForge hollowPrims toyD1 (guestSpy [66]) 6 true) [])) :=
  C107_case ▸ C108_outsiders hollowLaws toyD1 (guestSpy [66]) 6

end D1
