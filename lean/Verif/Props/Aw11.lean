import Verif.Proof.Aw11
import Verif.Proof.Ac17
import Verif.Props.Parser
import Verif.Props.Msp
import Verif.Instance.Bn
import Verif.Instance.Case

/-!
# C38–C41: AW11
-/

set_option linter.unusedSectionVars false
set_option linter.unnecessarySeqFocus false

namespace Rabe
namespace Aw11

variable {F G1 G2 Gt : Type} [Field F] [DecidableEq F] [AddCommGroup G1] [Module F G1]
  [AddCommGroup G2] [Module F G2] [AddCommGroup Gt] [Module F Gt]

/-! ## Correctness -/

/-- **C38, partial.** Any number of authorities with pairwise different attributes, any key collected by any sequence of
`keygen` and `add_to_attribute` requests at these authorities, any encryption under a regular policy with the public
keys of authorities that cover the owned attributes of the policy: if the collected attributes satisfy the policy then
decryption returns the plaintext. The names in the policy are in upper case, the owned ones have no underscore. (Full
claim: every
accepted policy, authorities free to choose names; false, see `C38_violated_underscore`, `C38_violated_same_name`,
`C40_violated_policy`.) -/
theorem C38_aw11_correct_partial [BigChar F] (cm : CaseMap) (env : Env F G1 G2 Gt) (gk : GlobalKey G1 G2)
    (auths : List (Authority F G2 Gt)) (hauths : ∀ a ∈ auths, a.Genuine cm env gk)
    (hdistinct : (auths.flatMap fun a => a.names.map cm.upper).Nodup)
    (sk : SecretKey G1) (hkey : Issued cm env gk auths sk)
    (text : Str) (lang : PolicyLanguage) (p : Pol) (hreg : Regular text lang p)
    (hname : ∀ n ∈ p.names, n ∈ sk.attr.map (·.1) → '_' ∉ n) (hupper : ∀ n ∈ p.names, cm.upper n = n)
    (pks : List (PublicKey G2 Gt)) (hpks : ∀ pk ∈ pks, ∃ a ∈ auths, a.pk = pk)
    (hcover : ∀ n ∈ p.names, n ∈ sk.attr.map (·.1) → ∃ pk ∈ pks, n ∈ pk.attr.map (·.name))
    (plaintext : Bytes) (t t' : Tape F G1 G2 Gt) (ct : Ciphertext G2 Gt)
    (henc : encrypt cm env gk pks text lang plaintext t = .ok (ct, t'))
    (hsat : p.sat (sk.attr.map (·.1)) = true) : decrypt env gk sk ct = .ok plaintext := by
  obtain ⟨L, hL, hLn, hA⟩ := authorities_ok hauths
  have hup : ∀ x ∈ L, cm.upper x.1.name = x.1.name := by
    intro x hx
    have : x.1.name ∈ L.map (·.1.name) := List.mem_map.2 ⟨x, hx, rfl⟩
    rw [hLn] at this
    obtain ⟨a, _, ha⟩ := List.mem_flatMap.1 this
    obtain ⟨n, _, hn⟩ := List.mem_map.1 ha
    rw [← hn, cm.upper_idem]
  obtain ⟨_, hne, hk⟩ := issued_ok hL hup (fun a ha => (hA a ha).2.1) hkey
  obtain ⟨_, msg, s, ω, ω', hc, hd⟩ := encrypt_ok hreg.denotes henc
  have hmem : ∀ l ∈ p.leaves, l.1 ∈ p.names := fun l hl => List.mem_map.2 ⟨l, hl, rfl⟩
  obtain ⟨δ, g, hg, hdec⟩ := decrypt_ok hL (hLn ▸ hdistinct)
    (fun pk hpk x hx => by obtain ⟨a, ha, rfl⟩ := hpks pk hpk; exact (hA a ha).1 x hx)
    hc hk hsat hreg.wide hreg.fits hreg.labels (fun l hl ha => hname _ (hmem l hl) ha)
    (fun l hl => hupper _ (hmem l hl)) (fun l hl => hcover _ (hmem l hl)) hne
  rw [hdec]
  have hz : ∀ M : List (Str × ℕ), (∀ l ∈ M, g l = sk.gid) →
      (M.map fun l => δ l * (env.hash sk.gid - env.hash (g l))).sum = 0 := by
    intro M hM
    apply List.sum_eq_zero
    intro x hx
    obtain ⟨l, hl, rfl⟩ := List.mem_map.1 hx
    simp [hM l hl]
  rw [hz _ hg]
  simpa using hd

/-- The matrix of a span program has a first row. -/
theorem msp_first {p : Pol} (hb : p.Binary) {msp} (h : calculateMsp p.toValue = .ok msp) :
    ∃ r, Res.index msp.m 0 = .ok r := by
  obtain ⟨msp', R, hm, _, hR, _, _, _, hmR, _⟩ := calculateMsp_eq p hb
  rw [h] at hm
  obtain rfl := Res.ok.inj hm
  have h1 := congrArg List.length hR
  rw [List.length_map, mrows_length p hb] at h1
  have h2 := hmR.length_eq
  have h3 : p.leaves.length ≠ 0 := by simpa using Ac17.leaves_ne_nil hb.wide
  cases hm : msp.m with
  | nil => rw [hm] at h2; simp at h2; omega
  | cons r rs => exact ⟨r, rfl⟩

/-- A request succeeds iff the attribute and the identity are not empty and the authority knows the name as given. -/
theorem C38_aw11_defined_add (cm : CaseMap) (env : Env F G1 G2 Gt) (gk : GlobalKey G1 G2) (a : Authority F G2 Gt)
    (ha : a.Genuine cm env gk) (attr : Str) (sk : SecretKey G1) :
    (∃ sk', addToAttribute cm env gk a.msk attr sk = .ok sk') ↔
      attr ≠ [] ∧ sk.gid ≠ [] ∧ attr ∈ a.names.map cm.upper := by
  obtain ⟨L, hL, hLn, hA⟩ := authorities_ok (auths := [a]) (by simpa using ha)
  have hn := (hA a (by simp)).2.2.2
  constructor
  · rintro ⟨sk', h⟩
    unfold addToAttribute at h
    split at h
    · simp at h
    · rename_i h1
      split at h
      · simp at h
      · rename_i h2
        refine ⟨by rintro rfl; simp at h1, by intro hc; rw [hc] at h2; simp at h2, ?_⟩
        simp only [Res.bind_eq_ok] at h
        obtain ⟨x, hx, _⟩ := h
        cases hf : a.msk.attr.find? fun a => a.name == attr with
        | none => rw [hf] at hx; simp at hx
        | some b =>
          rw [← hn]
          exact List.mem_map.2 ⟨b, List.mem_of_find?_eq_some hf, by simpa using List.find?_some hf⟩
  · rintro ⟨h1, h2, h3⟩
    rw [← hn] at h3
    obtain ⟨k, _, hk, _⟩ := exists_find? (·.name) a.msk.attr attr h3
    have h1' : attr.isEmpty = false := by cases attr <;> simp_all
    have h2' : sk.gid.isEmpty = false := by cases hg : sk.gid <;> simp_all
    simp [addToAttribute, h1', h2', hk]

/-- Set-up and authority set-up (with at least one attribute) always succeed, encryption for every accepted policy
whose AND gates have two and whose OR gates have at least two children. -/
theorem C38_aw11_defined (cm : CaseMap) (env : Env F G1 G2 Gt) :
    (∀ t : Tape F G1 G2 Gt, ∃ gk t', setup t = .ok (gk, t')) ∧
    (∀ gk (names : List Str), names ≠ [] → ∀ t : Tape F G1 G2 Gt,
      ∃ pk msk t', authgen cm env gk names t = .ok (some (pk, msk), t')) ∧
    (∀ (gk : GlobalKey G1 G2) pks text lang p, Denotes text lang p → p.Binary → ∀ (plaintext : Bytes),
      (∀ k n, (env.aeadEnc k n plaintext).isSome = true) →
      ∀ s, ∃ ct s', encrypt cm env gk pks text lang plaintext s = .ok (ct, s')) := by
  refine ⟨?_, ?_, ?_⟩
  · intro t
    simp only [setup, RM.bind_apply, RM.genG1, RM.genG2, RM.pure_apply, Res.ok.injEq, Prod.mk.injEq]
    exact ⟨_, _, rfl, rfl⟩
  · intro gk names hne t
    have hne' : names.isEmpty = false := by cases names <;> simp_all
    obtain ⟨ys, t', h⟩ := RM.mapL_total (f := authgenAttr cm env gk) (xs := names)
      (by intro x _ u; simp [authgenAttr, RM.genFr]) t
    simp [authgen, hne', h]
  · intro gk pks text lang p hp hb plaintext ha s
    have hp' : parse text lang = .ok p.toValue := hp
    obtain ⟨msp, _, hm, _⟩ := calculateMsp_eq p hb
    obtain ⟨r0, hr0⟩ := msp_first hb hm
    obtain ⟨C, s', hC⟩ := RM.mapL_total
      (f := encShare cm env gk pks (shares p 0 (dropS (draws p) (dropS 1 s.fr))))
      (xs := (shares p (s.fr 0) (dropS 1 s.fr)).zipIdx)
      (by
        intro x hx u
        cases hf : findPkAttr (removeIndex (cm.upper x.1.1)) pks with
        | none => simp [encShare, RM.genFr, hf]
        | some a =>
          have hi : x.2 < (shares p (0 : F) (dropS (draws p) (dropS 1 s.fr))).length := by
            have h1 := List.mem_zipIdx_iff_getElem?.1 hx
            obtain ⟨h2, _⟩ := List.getElem?_eq_some_iff.1 h1
            simpa [shares, shareVals_length] using h2
          simp [encShare, RM.genFr, hf, Res.index, List.getElem?_eq_getElem hi])
      { fr := dropS (draws p) (dropS (draws p) (dropS 1 s.fr)), g1 := s.g1, g2 := s.g2, gt := dropS 1 s.gt, byte := s.byte }
    obtain ⟨c, hc⟩ := Option.isSome_iff_exists.1 (ha (env.kdf (s.gt 0)) ((List.range 12).map s'.byte))
    simp [encrypt, RM.bind_apply, RM.genFr, RM.genGt, hp', hm, hr0, RM.liftFr, genSharesPolicy_eq, encryptSymmetric,
      RM.genBytes, hC, hc]

/-- Two authorities in the concrete environment, the first with the names `names₁` and random numbers 2, 3, …, the
second with `names₂` and all random numbers one. The user `U` obtains a key for `attrs₂` from the second and adds
`attrs₁` from the first; the message is encrypted with both public keys. -/
def toyRun (names₁ names₂ attrs₂ attrs₁ : List Str) (text : Str) (lang : PolicyLanguage) (plaintext : Bytes) :
    Res (SecretKey Fr × Res Bytes) := do
  let x ← setup toyTape
  let y₁ ← authgen asciiCase toyEnv x.1 names₁ { toyTape with fr := fun n => n + 2 }
  let a₁ ← Res.unwrapOption y₁.1
  let y₂ ← authgen asciiCase toyEnv x.1 names₂ toyTape
  let a₂ ← Res.unwrapOption y₂.1
  let sk₁ ← keygen asciiCase toyEnv x.1 a₂.2 ['U'] attrs₂
  let sk ← Res.foldR (fun sk a => addToAttribute asciiCase toyEnv x.1 a₁.2 a sk) sk₁ attrs₁
  let z ← encrypt asciiCase toyEnv x.1 [a₁.1, a₂.1] text lang plaintext { toyTape with fr := fun n => n + 3 }
  .ok (sk, decrypt toyEnv x.1 sk z.1)

theorem toyRun_ok {names₁ names₂ attrs₂ attrs₁ text lang plaintext sk r}
    (h : toyRun names₁ names₂ attrs₂ attrs₁ text lang plaintext = .ok (sk, r)) :
    ∃ (gk : GlobalKey Fr Fr) (a₁ a₂ : Authority Fr Fr Fr) (ct : Ciphertext Fr Fr) (t t' : Tape Fr Fr Fr Fr),
      a₁.names = names₁ ∧ a₂.names = names₂ ∧ a₁.Genuine asciiCase toyEnv gk ∧ a₂.Genuine asciiCase toyEnv gk ∧
      Issued asciiCase toyEnv gk [a₁, a₂] sk ∧
      encrypt asciiCase toyEnv gk [a₁.pk, a₂.pk] text lang plaintext t = .ok (ct, t') ∧ decrypt toyEnv gk sk ct = r := by
  simp only [toyRun, Res.bind_eq_ok, Res.ok.injEq, Prod.mk.injEq] at h
  obtain ⟨⟨gk, t1⟩, _, ⟨o, t2⟩, h2, ⟨pk1, msk1⟩, h3, ⟨o', t3⟩, h4, ⟨pk2, msk2⟩, h5, sk1, h6, sk2, h7, ⟨ct, t4⟩, h8,
    rfl, h9⟩ := h
  cases o with
  | none => simp at h3
  | some a =>
    cases o' with
    | none => simp at h5
    | some b =>
      obtain rfl := Res.ok.inj h3
      obtain rfl := Res.ok.inj h5
      refine ⟨gk, ⟨names₁, pk1, msk1⟩, ⟨names₂, pk2, msk2⟩, ct, _, t4, rfl, rfl, ⟨_, _, h2⟩, ⟨_, _, h4⟩, ?_, h8, h9⟩
      have hi : Issued asciiCase toyEnv gk [⟨names₁, pk1, msk1⟩, ⟨names₂, pk2, msk2⟩] sk1 :=
        .keygen (a := ⟨names₂, pk2, msk2⟩) (by simp) h6
      exact foldR_inv (fun s => Issued asciiCase toyEnv gk [⟨names₁, pk1, msk1⟩, ⟨names₂, pk2, msk2⟩] s)
        (fun b x b' _ hb hs => .add hb (a := ⟨names₁, pk1, msk1⟩) (by simp) hs) hi h7

/-- **C38 is violated, underscores.** With one authority for `A_1`, the key for `A_1` aborts on the policy `A_1`: the
encryption looks for a public key of `A` and leaves out the component. -/
theorem C38_violated_underscore : ∃ (p : Pol) (gk : GlobalKey Fr Fr) (a₁ a₂ : Authority Fr Fr Fr) (sk : SecretKey Fr)
    (ct : Ciphertext Fr Fr) (t t' : Tape Fr Fr Fr Fr),
    a₁.names = [['B']] ∧ a₂.names = [(chars% "A_1")] ∧
    a₁.Genuine asciiCase toyEnv gk ∧ a₂.Genuine asciiCase toyEnv gk ∧ Issued asciiCase toyEnv gk [a₁, a₂] sk ∧
    Regular (chars% "\"A_1\"") .human p ∧ p.sat (sk.attr.map (·.1)) = true ∧
    encrypt asciiCase toyEnv gk [a₁.pk, a₂.pk] (chars% "\"A_1\"") .human [7] t = .ok (ct, t') ∧
    decrypt toyEnv gk sk ct = .panic := by
  have h : (toyRun [['B']] [(chars% "A_1")] [(chars% "A_1")] [] (chars% "\"A_1\"") .human [7] >>=
      fun r => if r.1.attr.map (·.1) = [(chars% "A_1")] then Res.ok r.2 else .err) = .ok .panic := by decide +kernel
  obtain ⟨⟨sk, r⟩, h1, h2⟩ := Res.bind_eq_ok.1 h
  obtain ⟨gk, a₁, a₂, ct, t, t', e1, e2, g1, g2, hi, henc, hdec⟩ := toyRun_ok h1
  split at h2
  · rename_i hs
    obtain rfl := Res.ok.inj h2
    refine ⟨.leaf (chars% "A_1") 2, gk, a₁, a₂, sk, ct, t, t', e1, e2, g1, g2, hi,
      ⟨rfl, by simp, by simp [Pol.Wide], by simp⟩, ?_, henc, hdec⟩
    simp only at hs
    rw [hs]
    simp
  · simp at h2

/-- **C38 is violated, same name at two authorities.** When both authorities have an attribute `A`, a key for `A` of
the second does not decrypt what is encrypted with the public keys of both (the component is made for the first). -/
theorem C38_violated_same_name : ∃ (p : Pol) (gk : GlobalKey Fr Fr) (a₁ a₂ : Authority Fr Fr Fr) (sk : SecretKey Fr)
    (ct : Ciphertext Fr Fr) (t t' : Tape Fr Fr Fr Fr),
    a₁.names = [['A']] ∧ a₂.names = [['A']] ∧
    a₁.Genuine asciiCase toyEnv gk ∧ a₂.Genuine asciiCase toyEnv gk ∧ Issued asciiCase toyEnv gk [a₁, a₂] sk ∧
    Regular (chars% "\"A\"") .human p ∧ p.sat (sk.attr.map (·.1)) = true ∧
    encrypt asciiCase toyEnv gk [a₁.pk, a₂.pk] (chars% "\"A\"") .human [7] t = .ok (ct, t') ∧
    decrypt toyEnv gk sk ct = .err := by
  have h : (toyRun [['A']] [['A']] [['A']] [] (chars% "\"A\"") .human [7] >>=
      fun r => if r.1.attr.map (·.1) = [['A']] then Res.ok r.2 else .panic) = .ok .err := by decide +kernel
  obtain ⟨⟨sk, r⟩, h1, h2⟩ := Res.bind_eq_ok.1 h
  obtain ⟨gk, a₁, a₂, ct, t, t', e1, e2, g1, g2, hi, henc, hdec⟩ := toyRun_ok h1
  split at h2
  · rename_i hs
    obtain rfl := Res.ok.inj h2
    refine ⟨.leaf ['A'] 2, gk, a₁, a₂, sk, ct, t, t', e1, e2, g1, g2, hi,
      ⟨rfl, by simp, by simp [Pol.Wide], by simp⟩, ?_, henc, hdec⟩
    simp only at hs
    rw [hs]
    simp
  · simp at h2

/-- **C38 is violated, wide gates.** A policy with three AND-connected attributes cannot be encrypted: `encrypt`
aborts, whatever the keys. -/
theorem C38_violated_ternary : ∃ text p, Denotes text .human p ∧ p.Wide ∧ ∀ (cm : CaseMap) (env : Env F G1 G2 Gt)
    (gk : GlobalKey G1 G2) (pks : List (PublicKey G2 Gt)) (plaintext : Bytes) (t : Tape F G1 G2 Gt),
    encrypt cm env gk pks text .human plaintext t = .panic := by
  refine ⟨(chars% "\"A\" and \"B\" and \"C\""), .gate .and [.leaf ['A'] 2, .leaf ['B'] 10, .leaf ['C'] 18], rfl,
    by simp [Pol.Wide], ?_⟩
  intro cm env gk pks plaintext t
  have hp : parse (chars% "\"A\" and \"B\" and \"C\"") .human =
    .ok (Pol.gate .and [.leaf ['A'] 2, .leaf ['B'] 10, .leaf ['C'] 18]).toValue := rfl
  have hm : calculateMsp (Pol.gate .and [.leaf ['A'] 2, .leaf ['B'] 10, .leaf ['C'] 18]).toValue = .panic := rfl
  simp only [encrypt, hp, RM.bind_apply, RM.lift_ok, hm, Res.unwrap_panic, RM.lift_panic]

/-- A run of the concrete environment meeting all hypotheses of `C38_aw11_correct_partial`: `A` from one authority, `B`
from another, the policy `("A" and "B") or "C"`. -/
example : ∃ (p : Pol) (gk : GlobalKey Fr Fr) (a₁ a₂ : Authority Fr Fr Fr) (sk : SecretKey Fr)
    (ct : Ciphertext Fr Fr) (t t' : Tape Fr Fr Fr Fr),
    (∀ a ∈ [a₁, a₂], a.Genuine asciiCase toyEnv gk) ∧
    ([a₁, a₂].flatMap fun a => a.names.map asciiCase.upper).Nodup ∧ Issued asciiCase toyEnv gk [a₁, a₂] sk ∧
    Regular (chars% "(\"A\" and \"B\") or \"C\"") .human p ∧ (∀ n ∈ p.names, n ∈ sk.attr.map (·.1) → '_' ∉ n) ∧
    (∀ n ∈ p.names, asciiCase.upper n = n) ∧
    (∀ n ∈ p.names, n ∈ sk.attr.map (·.1) → ∃ pk ∈ [a₁.pk, a₂.pk], n ∈ pk.attr.map (·.name)) ∧
    encrypt asciiCase toyEnv gk [a₁.pk, a₂.pk] (chars% "(\"A\" and \"B\") or \"C\"") .human [1, 2, 3] t = .ok (ct, t') ∧
    p.sat (sk.attr.map (·.1)) = true ∧ decrypt toyEnv gk sk ct = .ok [1, 2, 3] := by
  have h : (toyRun [['b'], ['c']] [['A']] [['A']] [['B']] (chars% "(\"A\" and \"B\") or \"C\"") .human [1, 2, 3] >>=
      fun r => if r.1.attr.map (·.1) = [['A'], ['B']] then Res.ok () else .panic) = .ok () := by decide +kernel
  obtain ⟨⟨sk, r⟩, h1, h2⟩ := Res.bind_eq_ok.1 h
  obtain ⟨gk, a₁, a₂, ct, t, t', e1, e2, g1, g2, hi, henc, hdec⟩ := toyRun_ok h1
  split at h2
  · rename_i hs
    simp only at hs
    let p : Pol := .gate .or [.gate .and [.leaf ['A'] 3, .leaf ['B'] 11], .leaf ['C'] 19]
    have hr : Regular (chars% "(\"A\" and \"B\") or \"C\"") .human p :=
      ⟨rfl, by simp, by simp [Pol.Wide, p], by simp [p]⟩
    have hG : ∀ a ∈ [a₁, a₂], a.Genuine asciiCase toyEnv gk := by simp [g1, g2]
    have hD : ([a₁, a₂].flatMap fun a => a.names.map asciiCase.upper).Nodup := by
      simp only [List.flatMap_cons, List.flatMap_nil, e1, e2]
      decide
    have hN : ∀ n ∈ p.names, n ∈ sk.attr.map (·.1) → '_' ∉ n := by
      rw [hs]
      simp only [Pol.names, p]
      decide
    have hU : ∀ n ∈ p.names, asciiCase.upper n = n := by
      simp only [Pol.names, p]
      decide
    obtain ⟨L, _, _, hA⟩ := authorities_ok hG
    have hC : ∀ n ∈ p.names, n ∈ sk.attr.map (·.1) → ∃ pk ∈ [a₁.pk, a₂.pk], n ∈ pk.attr.map (·.name) := by
      intro n _ hn
      rw [hs] at hn
      simp only [List.mem_cons, List.not_mem_nil, or_false] at hn
      rcases hn with rfl | rfl
      · refine ⟨a₂.pk, by simp, ?_⟩
        rw [(hA a₂ (by simp)).2.2.1, e2]
        decide
      · refine ⟨a₁.pk, by simp, ?_⟩
        rw [(hA a₁ (by simp)).2.2.1, e1]
        decide
    have hS : p.sat (sk.attr.map (·.1)) = true := by rw [hs]; simp [p]
    exact ⟨p, gk, a₁, a₂, sk, ct, t, t', hG, hD, hi, hr, hN, hU, hC, henc, hS,
      C38_aw11_correct_partial asciiCase toyEnv gk [a₁, a₂] hG hD sk hi _ _ p hr hN hU [a₁.pk, a₂.pk] (by simp) hC _ t t'
        ct henc hS⟩
  · simp at h2

/-! ## Refusal -/

/-- **C39.** Whatever the group elements are: if the attribute names of the key do not satisfy the policy stored in the
ciphertext, `decrypt` returns an error. -/
theorem C39_aw11_refuses (env : Env F G1 G2 Gt) (gk : GlobalKey G1 G2) (sk : SecretKey G1) (ct : Ciphertext G2 Gt)
    (p : Pol) (hp : Denotes ct.policy.1 ct.policy.2 p)
    (h : p.sat (sk.attr.map (·.1)) = false ∨ sk.attr = []) : decrypt env gk sk ct = .err := by
  have hp' : parse ct.policy.1 ct.policy.2 = .ok p.toValue := hp
  have ht : traversePolicy (sk.attr.map (·.1)) p.toValue .leaf = false := by
    by_cases he : sk.attr = []
    · rw [he, List.map_nil, traverse_nil]
    · rw [traverse_eq_sat _ (by simpa using he)]
      exact h.resolve_right he
  simp only [decrypt, hp', Res.ok_bind, ht, if_true]

/-- Contrapositive of **C39**, for every stored policy text. -/
theorem C39_aw11_decrypts_only_if_satisfied (env : Env F G1 G2 Gt) (gk : GlobalKey G1 G2) (sk : SecretKey G1)
    (ct : Ciphertext G2 Gt) (data : Bytes) (h : decrypt env gk sk ct = .ok data) :
    ∃ p, Denotes ct.policy.1 ct.policy.2 p ∧ p.sat (sk.attr.map (·.1)) = true ∧ sk.attr ≠ [] := by
  have h' := h
  simp only [decrypt, Res.bind_eq_ok] at h'
  obtain ⟨v, hv, _⟩ := h'
  obtain ⟨p, rfl, _⟩ := parse_ok hv
  refine ⟨p, hv, ?_, ?_⟩
  · by_contra hc
    rw [C39_aw11_refuses env gk sk ct p hv (Or.inl (by simpa using hc))] at h
    simp at h
  · intro hc
    rw [C39_aw11_refuses env gk sk ct p hv (Or.inr hc)] at h
    simp at h

/-- A key owning one of two needed attributes. -/
example (x : Fr) : let sk : SecretKey Fr := ⟨['U'], [(['A'], x)]⟩
    ∃ p, Denotes (chars% "\"A\" and \"B\"") .human p ∧ p.sat (sk.attr.map (·.1)) = false :=
  ⟨.gate .and [.leaf ['A'] 2, .leaf ['B'] 10], rfl, by simp⟩

/-! ## Upper and lower case -/

/-- **C40 is violated in `keygen` and `add_to_attribute`.** For every authority and every attribute name that is not in
upper case (even one given to `authgen` in exactly this spelling) the request aborts. -/
theorem C40_violated_keygen (cm : CaseMap) (env : Env F G1 G2 Gt) (gk : GlobalKey G1 G2) (a : Authority F G2 Gt)
    (ha : a.Genuine cm env gk) (attr : Str) (hne : attr ≠ []) (hlow : cm.upper attr ≠ attr) :
    (∀ sk : SecretKey G1, sk.gid ≠ [] → addToAttribute cm env gk a.msk attr sk = .panic) ∧
    (∀ gid : Str, gid ≠ [] → keygen cm env gk a.msk gid [attr] = .panic) := by
  obtain ⟨L, hL, hLn, hA⟩ := authorities_ok (auths := [a]) (by simpa using ha)
  have hn := (hA a (by simp)).2.2.2
  have hf : (a.msk.attr.find? fun a => a.name == attr) = none := by
    rw [List.find?_eq_none]
    intro x hx hc
    have : x.name ∈ a.names.map cm.upper := hn ▸ List.mem_map.2 ⟨x, hx, rfl⟩
    obtain ⟨n, _, hn'⟩ := List.mem_map.1 this
    have hxa : x.name = attr := by simpa using hc
    apply hlow
    rw [← hxa, ← hn', cm.upper_idem]
  have h1' : attr.isEmpty = false := by cases attr <;> simp_all
  have hadd : ∀ sk : SecretKey G1, sk.gid ≠ [] → addToAttribute cm env gk a.msk attr sk = .panic := by
    intro sk hg
    have h2' : sk.gid.isEmpty = false := by cases hg' : sk.gid <;> simp_all
    simp [addToAttribute, h1', h2', hf]
  refine ⟨hadd, fun gid hg => ?_⟩
  have h2' : gid.isEmpty = false := by cases hg' : gid <;> simp_all
  simp [keygen, h2', Res.foldR, Res.rbind_eq, hadd ⟨gid, []⟩ hg]

/-- The attribute `a`, given to `authgen` in this spelling. -/
example (gk : GlobalKey Fr Fr) : ∃ a : Authority Fr Fr Fr, a.names = [['a']] ∧ a.Genuine asciiCase toyEnv gk ∧
    asciiCase.upper ['a'] ≠ ['a'] := by
  obtain ⟨pk, msk, t', h⟩ := (C38_aw11_defined asciiCase toyEnv).2.1 gk [['a']] (by simp) toyTape
  exact ⟨⟨[['a']], pk, msk⟩, rfl, ⟨_, _, h⟩, by decide⟩

/-- **C40 is violated in `decrypt`.** A policy consisting of one name that is not in upper case is refused for every
key anybody can hold, although `encrypt` uses the public key of the name in upper case. -/
theorem C40_violated_policy (cm : CaseMap) (env : Env F G1 G2 Gt) (gk : GlobalKey G1 G2)
    (auths : List (Authority F G2 Gt)) (hauths : ∀ a ∈ auths, a.Genuine cm env gk)
    (sk : SecretKey G1) (hkey : Issued cm env gk auths sk) (text : Str) (lang : PolicyLanguage) (n : Str) (pos : ℕ)
    (hp : Denotes text lang (.leaf n pos)) (hlow : cm.upper n ≠ n)
    (pks : List (PublicKey G2 Gt)) (plaintext : Bytes) (t t' : Tape F G1 G2 Gt) (ct : Ciphertext G2 Gt)
    (henc : encrypt cm env gk pks text lang plaintext t = .ok (ct, t')) : decrypt env gk sk ct = .err := by
  obtain ⟨L, hL, hLn, hA⟩ := authorities_ok hauths
  have hup : ∀ x ∈ L, cm.upper x.1.name = x.1.name := by
    intro x hx
    have : x.1.name ∈ L.map (·.1.name) := List.mem_map.2 ⟨x, hx, rfl⟩
    rw [hLn] at this
    obtain ⟨a, _, ha⟩ := List.mem_flatMap.1 this
    obtain ⟨n, _, hn⟩ := List.mem_map.1 ha
    rw [← hn, cm.upper_idem]
  obtain ⟨_, hne, hk⟩ := issued_ok hL hup (fun a ha => (hA a ha).2.1) hkey
  obtain ⟨_, msg, s, ω, ω', hc, hd⟩ := encrypt_ok hp henc
  refine C39_aw11_refuses env gk sk ct (.leaf n pos) hc.policy (Or.inl ?_)
  rw [Pol.sat_leaf, decide_eq_false_iff_not]
  intro hmem
  obtain ⟨c, hcm, hcn⟩ := List.mem_map.1 hmem
  obtain ⟨x, hx, g, _, rfl⟩ := hk c hcm
  exact hlow (by rw [← hcn]; exact hup x hx)

/-- The attribute `a` and the policy `"a"`: `encrypt` accepts it, and the user holds a key for `A`. -/
example : ∃ (gk : GlobalKey Fr Fr) (a₁ a₂ : Authority Fr Fr Fr) (sk : SecretKey Fr) (ct : Ciphertext Fr Fr)
    (t t' : Tape Fr Fr Fr Fr), (∀ a ∈ [a₁, a₂], a.Genuine asciiCase toyEnv gk) ∧
    Issued asciiCase toyEnv gk [a₁, a₂] sk ∧ Denotes (chars% "\"a\"") .human (.leaf ['a'] 2) ∧
    asciiCase.upper ['a'] ≠ ['a'] ∧ sk.attr.map (·.1) = [['A']] ∧
    encrypt asciiCase toyEnv gk [a₁.pk, a₂.pk] (chars% "\"a\"") .human [7] t = .ok (ct, t') ∧
    decrypt toyEnv gk sk ct = .err := by
  have h : (toyRun [['b']] [['a']] [['A']] [] (chars% "\"a\"") .human [7] >>=
      fun r => if r.1.attr.map (·.1) = [['A']] then Res.ok r.2 else .panic) = .ok .err := by decide +kernel
  obtain ⟨⟨sk, r⟩, h1, h2⟩ := Res.bind_eq_ok.1 h
  obtain ⟨gk, a₁, a₂, ct, t, t', e1, e2, g1, g2, hi, henc, hdec⟩ := toyRun_ok h1
  split at h2
  · rename_i hs
    obtain rfl := Res.ok.inj h2
    exact ⟨gk, a₁, a₂, sk, ct, t, t', by simp [g1, g2], hi, rfl, by decide, hs, henc, hdec⟩
  · simp at h2

/-- **C40, partial: authority set-up.** `authgen` only depends on the names in upper case. (Full claim: also the
requests, encryption and decryption; false for the requests and for decryption, see `C40_violated_keygen` and
`C40_violated_policy`; for encryption see `C40_aw11_encrypt_partial`.) -/
theorem C40_aw11_authgen_partial (cm : CaseMap) (env : Env F G1 G2 Gt) (gk : GlobalKey G1 G2) (names names' : List Str)
    (h : names.map cm.upper = names'.map cm.upper) : authgen cm env gk names = authgen cm env gk names' := by
  have hattr : ∀ n n' : Str, cm.upper n = cm.upper n' → authgenAttr cm env gk n = authgenAttr cm env gk n' := by
    intro n n' hn
    simp only [authgenAttr, hn]
  have hmap : ∀ xs ys : List Str, xs.map cm.upper = ys.map cm.upper →
      RM.mapL (authgenAttr cm env gk) xs = RM.mapL (authgenAttr cm env gk) ys := by
    intro xs
    induction xs with
    | nil => intro ys h; cases ys <;> simp_all
    | cons x xs ih =>
      intro ys h
      cases ys with
      | nil => simp at h
      | cons y ys =>
        simp only [List.map_cons, List.cons.injEq] at h
        simp only [RM.mapL, hattr x y h.1, ih ys h.2]
  have he : names.isEmpty = names'.isEmpty := by
    cases names <;> cases names' <;> simp_all
  simp only [authgen, he, hmap names names' h]

example : ([['a'], ['B']] : List Str).map asciiCase.upper = [['A'], ['b']].map asciiCase.upper := by decide

mutual
/-- The tree with `f` applied to every attribute name. -/
def rename (f : Str → Str) : Pol → Pol
  | .leaf n c => .leaf (f n) c
  | .gate op cs => .gate op (renameL f cs)
/-- `rename` for a list of trees. -/
def renameL (f : Str → Str) : List Pol → List Pol
  | [] => []
  | c :: cs => rename f c :: renameL f cs
end

theorem renameL_eq (f : Str → Str) (cs : List Pol) : renameL f cs = cs.map (rename f) := by
  induction cs with
  | nil => rfl
  | cons c cs ih => rw [renameL, ih, List.map_cons]

theorem leaves_rename (f : Str → Str) : ∀ p : Pol, (rename f p).leaves = p.leaves.map fun l => (f l.1, l.2) := by
  intro p
  induction p using Pol.ind with
  | hl n c => simp [rename]
  | hg op cs ih =>
    rw [rename, renameL_eq, Pol.leaves_gate, Pol.leaves_gate, List.flatMap_map, List.map_flatMap]
    exact List.flatMap_congr ih

theorem arity_rename (f : Str → Str) (Q : Op → ℕ → Prop) : ∀ p : Pol, (rename f p).Arity Q ↔ p.Arity Q := by
  intro p
  induction p using Pol.ind with
  | hl n c => simp [rename]
  | hg op cs ih =>
    simp only [rename, renameL_eq, Pol.arity_gate, List.length_map, List.mem_map, forall_exists_index, and_imp,
      forall_apply_eq_imp_iff₂]
    exact and_congr_right fun _ => forall₂_congr ih

theorem draws_rename (f : Str → Str) : ∀ p : Pol, draws (rename f p) = draws p := by
  intro p
  induction p using Pol.ind with
  | hl n c => rfl
  | hg op cs ih =>
    have : drawsL (cs.map (rename f)) = drawsL cs := by
      induction cs with
      | nil => rfl
      | cons c cs ihc =>
        rw [List.map_cons, drawsL, drawsL, ih c (by simp), ihc fun d hd => ih d (by simp [hd])]
    rw [rename, renameL_eq, draws, draws, this, List.length_map]

theorem shareVals_rename (f : Str → Str) : ∀ (p : Pol) (σ : F) (ω : ℕ → F),
    shareVals (rename f p) σ ω = shareVals p σ ω := by
  intro p
  induction p using Pol.ind with
  | hl n c => intro σ ω; rfl
  | hg op cs ih =>
    have : ∀ (q : ℕ → F) i ω, shareValsL (cs.map (rename f)) q i ω = shareValsL cs q i ω := by
      induction cs with
      | nil => intro q i ω; rfl
      | cons c cs ihc =>
        intro q i ω
        rw [List.map_cons, shareValsL, shareValsL, ih c (by simp), draws_rename,
          ihc fun d hd => ih d (by simp [hd])]
    intro σ ω
    rw [rename, renameL_eq, shareVals, shareVals, this, List.length_map]

/-- Labelled shares in upper case. -/
def norm (cm : CaseMap) (S : List (Str × F)) : List (Str × F) := S.map fun x => (cm.upper x.1, x.2)

theorem shares_rename (cm : CaseMap) (p : Pol) (σ : F) (ω : ℕ → F) :
    shares (rename cm.upper p) σ ω = norm cm (shares p σ ω) := by
  rw [norm, shares, shares, shareVals_rename, leaves_rename, List.map_map]
  have : (leafIdx ∘ fun l : Str × ℕ => (cm.upper l.1, l.2)) = cm.upper ∘ leafIdx := by
    funext l
    simp only [Function.comp, leafIdx, CaseMap.upper_nodeIndex]
  rw [this, ← List.map_map (f := leafIdx) (g := cm.upper), List.zip_map_left]
  rfl

theorem encShare_norm (cm : CaseMap) (env : Env F G1 G2 Gt) (gk : GlobalKey G1 G2) (pks : List (PublicKey G2 Gt))
    (W : List (Str × F)) (x : (Str × F) × ℕ) :
    encShare cm env gk pks (norm cm W) ((cm.upper x.1.1, x.1.2), x.2) = encShare cm env gk pks W x := by
  funext t
  simp only [encShare, CaseMap.upper_idem]
  cases findPkAttr (removeIndex (cm.upper x.1.1)) pks with
  | none => rfl
  | some a =>
    cases hw : W[x.2]? with
    | none => simp [RM.bind_apply, RM.genFr, Res.index, norm, hw]
    | some w => simp [RM.bind_apply, RM.genFr, Res.index, norm, hw]

theorem mapL_map {α β γ : Type} (f : β → RM F G1 G2 Gt γ) (g : α → β) (xs : List α) :
    RM.mapL f (xs.map g) = RM.mapL (fun x => f (g x)) xs := by
  induction xs with
  | nil => rfl
  | cons x xs ih => simp only [List.map_cons, RM.mapL, ih]

theorem encShares_norm (cm : CaseMap) (env : Env F G1 G2 Gt) (gk : GlobalKey G1 G2) (pks : List (PublicKey G2 Gt))
    (W S : List (Str × F)) :
    RM.mapL (encShare cm env gk pks (norm cm W)) (norm cm S).zipIdx = RM.mapL (encShare cm env gk pks W) S.zipIdx := by
  rw [show (norm cm S).zipIdx = S.zipIdx.map fun x => ((cm.upper x.1.1, x.1.2), x.2) by rw [norm, List.zipIdx_map]; rfl,
    mapL_map]
  congr 1
  funext x
  exact encShare_norm cm env gk pks W x

/-- **C40, partial: encryption.** Two policies that differ in upper and lower case only (the columns of the attributes
are the same) are encrypted to the same components; only the stored text differs. -/
theorem C40_aw11_encrypt_partial (cm : CaseMap) (env : Env F G1 G2 Gt) (gk : GlobalKey G1 G2)
    (pks : List (PublicKey G2 Gt)) (text text' : Str) (lang lang' : PolicyLanguage) (p p' : Pol)
    (hp : Denotes text lang p) (hp' : Denotes text' lang' p') (h : rename cm.upper p = rename cm.upper p')
    (plaintext : Bytes) (t t' : Tape F G1 G2 Gt) (ct : Ciphertext G2 Gt)
    (henc : encrypt cm env gk pks text lang plaintext t = .ok (ct, t')) :
    encrypt cm env gk pks text' lang' plaintext t = .ok ({ ct with policy := (text', lang') }, t') := by
  have h1 : parse text lang = .ok p.toValue := hp
  have h2 : parse text' lang' = .ok p'.toValue := hp'
  have hb : p.Binary := (encrypt_ok h1 henc).1
  have hb' : p'.Binary := by
    have := (arity_rename cm.upper _ p).2 hb
    rw [h] at this
    exact (arity_rename cm.upper _ p').1 this
  obtain ⟨msp, _, hm, _⟩ := calculateMsp_eq p hb
  obtain ⟨msp', _, hm', _⟩ := calculateMsp_eq p' hb'
  obtain ⟨r, hr⟩ := msp_first hb hm
  obtain ⟨r', hr'⟩ := msp_first hb' hm'
  have hd : draws p' = draws p := by rw [← draws_rename cm.upper p', ← h, draws_rename]
  have hS : ∀ (σ : F) ω, norm cm (shares p' σ ω) = norm cm (shares p σ ω) := by
    intro σ ω
    rw [← shares_rename, ← h, shares_rename]
  simp only [encrypt, RM.bind_apply, h1, h2, RM.lift_ok, hm, hm', hr, hr', Res.unwrap_ok, RM.genFr, RM.liftFr,
    genSharesPolicy_eq, Res.unwrapOption_some, RM.genGt, hd] at henc ⊢
  rw [← encShares_norm, hS, hS, encShares_norm]
  cases hC : RM.mapL (encShare cm env gk pks (shares p 0 (dropS (draws p) (dropS 1 t.fr))))
      (shares p (t.fr 0) (dropS 1 t.fr)).zipIdx
      { fr := dropS (draws p) (dropS (draws p) (dropS 1 t.fr)), g1 := t.g1, g2 := t.g2, gt := dropS 1 t.gt,
        byte := t.byte } with
  | err => rw [hC] at henc; simp at henc
  | panic => rw [hC] at henc; simp at henc
  | ok C =>
    rw [hC] at henc
    simp only at henc ⊢
    cases hE : encryptSymmetric env (t.gt 0) plaintext C.2 with
    | err => rw [hE] at henc; simp at henc
    | panic => rw [hE] at henc; simp at henc
    | ok d =>
      rw [hE] at henc
      simp only [RM.pure_apply, Res.ok.injEq, Prod.mk.injEq] at henc ⊢
      obtain ⟨rfl, rfl⟩ := henc
      exact ⟨rfl, rfl⟩

example : ∃ p p', Denotes (chars% "\"a\" and \"B\"") .human p ∧ Denotes (chars% "\"A\" and \"b\"") .human p' ∧
    rename asciiCase.upper p = rename asciiCase.upper p' :=
  ⟨.gate .and [.leaf ['a'] 2, .leaf ['B'] 10], .gate .and [.leaf ['A'] 2, .leaf ['b'] 10], rfl, rfl, rfl⟩

/-! ## Combining keys of different identities -/

/-- The component of identity `w` made from components `k₁`, `k₂` of the identities `u`, `v` with public values only. -/
def combine (env : Env F G1 G2 Gt) (u v w : Str) (k₁ k₂ : Str × G1) : Str × G1 :=
  let c := (env.hash w - env.hash v) / (env.hash u - env.hash v)
  (k₁.1, c • k₁.2 + (1 - c) • k₂.2)

/-- **C41 is violated.** Components of the same attribute, issued by any authority to two identities with different
hashes, give the component that authority would issue to any third identity. -/
theorem C41_violated_add (cm : CaseMap) (env : Env F G1 G2 Gt) (gk : GlobalKey G1 G2) (msk : MasterKey F) (attr : Str)
    (sk₁ sk₂ sk₃ sk₁' sk₂' : SecretKey G1) (h₁ : addToAttribute cm env gk msk attr sk₁ = .ok sk₁')
    (h₂ : addToAttribute cm env gk msk attr sk₂ = .ok sk₂') (hh : env.hash sk₁.gid ≠ env.hash sk₂.gid)
    (hg : sk₃.gid ≠ []) :
    ∃ k₁ k₂, sk₁'.attr = sk₁.attr ++ [k₁] ∧ sk₂'.attr = sk₂.attr ++ [k₂] ∧
      addToAttribute cm env gk msk attr sk₃ =
        .ok { sk₃ with attr := sk₃.attr ++ [combine env sk₁.gid sk₂.gid sk₃.gid k₁ k₂] } := by
  unfold addToAttribute at *
  split at h₁
  · simp at h₁
  · rename_i he
    rw [if_neg he] at h₂ ⊢
    split at h₁
    · simp at h₁
    · split at h₂
      · simp at h₂
      · have hg' : sk₃.gid.isEmpty = false := by cases hg' : sk₃.gid <;> simp_all
        simp only [Res.bind_eq_ok, Res.ok.injEq] at h₁ h₂
        obtain ⟨a, ha, rfl⟩ := h₁
        obtain ⟨b, hb, rfl⟩ := h₂
        rw [ha] at hb
        obtain rfl := Res.ok.inj hb
        refine ⟨_, _, rfl, rfl, ?_⟩
        have hh' : env.hash sk₁.gid - env.hash sk₂.gid ≠ 0 := sub_ne_zero.2 hh
        rw [hg', ha]
        simp only [Bool.false_eq_true, if_false, Res.ok_bind, combine, Env.sha3Hash, Res.ok.injEq, SecretKey.mk.injEq,
          List.append_cancel_left_eq, List.cons.injEq, Prod.mk.injEq, true_and, and_true]
        match_scalars <;> field_simp <;> ring

/-- Two issued keys for the same attribute list give the issued key for any third identity. -/
theorem C41_violated_keygen (cm : CaseMap) (env : Env F G1 G2 Gt) (gk : GlobalKey G1 G2) (msk : MasterKey F) (u v w : Str)
    (attrs : List Str) (sk₁ sk₂ : SecretKey G1) (h₁ : keygen cm env gk msk u attrs = .ok sk₁)
    (h₂ : keygen cm env gk msk v attrs = .ok sk₂) (hh : env.hash u ≠ env.hash v) (hw : w ≠ []) :
    keygen cm env gk msk w attrs = .ok ⟨w, List.zipWith (combine env u v w) sk₁.attr sk₂.attr⟩ := by
  have key : ∀ (xs : List Str) (s₁ s₂ r₁ r₂ : SecretKey G1), s₁.gid = u → s₂.gid = v →
      s₁.attr.length = s₂.attr.length →
      Res.foldR (fun sk a => addToAttribute cm env gk msk a sk) s₁ xs = .ok r₁ →
      Res.foldR (fun sk a => addToAttribute cm env gk msk a sk) s₂ xs = .ok r₂ →
      Res.foldR (fun sk a => addToAttribute cm env gk msk a sk)
        ⟨w, List.zipWith (combine env u v w) s₁.attr s₂.attr⟩ xs =
        .ok ⟨w, List.zipWith (combine env u v w) r₁.attr r₂.attr⟩ := by
    intro xs
    induction xs with
    | nil =>
      intro s₁ s₂ r₁ r₂ _ _ _ h1 h2
      simp only [Res.foldR, Res.ok.injEq] at h1 h2
      rw [← h1, ← h2]
      rfl
    | cons x xs ih =>
      intro s₁ s₂ r₁ r₂ g1 g2 hl h1 h2
      simp only [Res.foldR, Res.rbind_eq, Res.bind_eq_ok] at h1 h2
      obtain ⟨s₁', a1, b1⟩ := h1
      obtain ⟨s₂', a2, b2⟩ := h2
      obtain ⟨k1, k2, e1, e2, e3⟩ := C41_violated_add cm env gk msk x s₁ s₂
        ⟨w, List.zipWith (combine env u v w) s₁.attr s₂.attr⟩ s₁' s₂' a1 a2 (by rw [g1, g2]; exact hh) hw
      have hgid : ∀ {s s' : SecretKey G1}, addToAttribute cm env gk msk x s = .ok s' → s'.gid = s.gid := by
        intro s s' h
        unfold addToAttribute at h
        split at h
        · simp at h
        · split at h
          · simp at h
          · simp only [Res.bind_eq_ok, Res.ok.injEq] at h
            obtain ⟨_, _, rfl⟩ := h
            rfl
      have := ih s₁' s₂' r₁ r₂ ((hgid a1).trans g1) ((hgid a2).trans g2) (by rw [e1, e2]; simp [hl]) b1 b2
      simp only [Res.foldR, Res.rbind_eq, e3, Res.ok_bind, g1, g2]
      rw [e1, e2, List.zipWith_append hl] at this
      exact this
  unfold keygen at *
  split at h₁
  · simp at h₁
  · rename_i he
    rw [if_neg he] at h₂ ⊢
    split at h₁
    · simp at h₁
    · split at h₂
      · simp at h₂
      · have hg' : w.isEmpty = false := by cases w <;> simp_all
        rw [hg']
        exact key attrs ⟨u, []⟩ ⟨v, []⟩ sk₁ sk₂ rfl rfl rfl h₁ h₂

/-- Consequence: a user who has some key and obtains, from two other users, their components for one attribute, holds a
key as if the authority had issued the attribute to them; by C38 it decrypts whatever such a key decrypts. -/
theorem C41_violated_issued (cm : CaseMap) (env : Env F G1 G2 Gt) (gk : GlobalKey G1 G2)
    (auths : List (Authority F G2 Gt)) (a : Authority F G2 Gt) (ha : a ∈ auths) (hG : ∀ a ∈ auths, a.Genuine cm env gk)
    (attr : Str) (sk₁ sk₂ sk₃ sk₁' sk₂' : SecretKey G1) (h₃ : Issued cm env gk auths sk₃)
    (h₁ : addToAttribute cm env gk a.msk attr sk₁ = .ok sk₁')
    (h₂ : addToAttribute cm env gk a.msk attr sk₂ = .ok sk₂') (hh : env.hash sk₁.gid ≠ env.hash sk₂.gid) :
    ∃ k₁ k₂, sk₁'.attr = sk₁.attr ++ [k₁] ∧ sk₂'.attr = sk₂.attr ++ [k₂] ∧
      Issued cm env gk auths { sk₃ with attr := sk₃.attr ++ [combine env sk₁.gid sk₂.gid sk₃.gid k₁ k₂] } := by
  obtain ⟨L, hL, hLn, hA⟩ := authorities_ok hG
  have hup : ∀ x ∈ L, cm.upper x.1.name = x.1.name := by
    intro x hx
    have : x.1.name ∈ L.map (·.1.name) := List.mem_map.2 ⟨x, hx, rfl⟩
    rw [hLn] at this
    obtain ⟨a, _, ha⟩ := List.mem_flatMap.1 this
    obtain ⟨n, _, hn⟩ := List.mem_map.1 ha
    rw [← hn, cm.upper_idem]
  obtain ⟨hg, _, _⟩ := issued_ok hL hup (fun a ha => (hA a ha).2.1) h₃
  obtain ⟨k1, k2, e1, e2, e3⟩ := C41_violated_add cm env gk a.msk attr sk₁ sk₂ sk₃ sk₁' sk₂' h₁ h₂ hh hg
  exact ⟨k1, k2, e1, e2, .add h₃ ha e3⟩

/-- The users `U`, `V` hold `A` only, the user `W` holds `B` only. With the components of `U` and `V`, `W` reads a
message for `"A" and "B"`. -/
example : (do
    let x ← setup toyTape
    let y₁ ← authgen asciiCase toyEnv x.1 [['A']] { toyTape with fr := fun n => n + 2 }
    let a₁ ← Res.unwrapOption y₁.1
    let y₂ ← authgen asciiCase toyEnv x.1 [['B']] toyTape
    let a₂ ← Res.unwrapOption y₂.1
    let u ← keygen asciiCase toyEnv x.1 a₁.2 ['U'] [['A']]
    let v ← keygen asciiCase toyEnv x.1 a₁.2 ['V'] [['A']]
    let w ← keygen asciiCase toyEnv x.1 a₂.2 ['W'] [['B']]
    let z ← encrypt asciiCase toyEnv x.1 [a₁.1, a₂.1] (chars% "\"A\" and \"B\"") .human [1, 2, 3]
      { toyTape with fr := fun n => n + 3 }
    let k₁ ← Res.index u.attr 0
    let k₂ ← Res.index v.attr 0
    Res.ok (decrypt toyEnv x.1 u z.1, decrypt toyEnv x.1 v z.1, decrypt toyEnv x.1 w z.1,
      decrypt toyEnv x.1 { w with attr := w.attr ++ [combine toyEnv ['U'] ['V'] ['W'] k₁ k₂] } z.1)) =
    .ok (.err, .err, .err, .ok [1, 2, 3]) := by decide +kernel

/-- **C41, partial: without such a pair of components.** For a policy of one attribute and a key of the identity `u`
whose component for this attribute was issued to the identity `v`: the decryption uses the session element shifted by
`r·y·(h(u) - h(v))` times the pairing of the generators, where `r` is the random number of the ciphertext component and
`y` a secret of the authority. (Full claim: no combination helps; false, see `C41_violated_add`.) -/
theorem C41_aw11_spliced_partial [BigChar F] (cm : CaseMap) (env : Env F G1 G2 Gt) (gk : GlobalKey G1 G2)
    (a : Authority F G2 Gt) (ha : a.Genuine cm env gk) (hdistinct : (a.names.map cm.upper).Nodup)
    (v : Str) (attr : Str) (hname : '_' ∉ attr) (skv : SecretKey G1)
    (hkey : keygen cm env gk a.msk v [attr] = .ok skv) (u : Str)
    (text : Str) (lang : PolicyLanguage) (pos : ℕ) (hp : Denotes text lang (.leaf attr pos))
    (plaintext : Bytes) (t t' : Tape F G1 G2 Gt) (ct : Ciphertext G2 Gt)
    (henc : encrypt cm env gk [a.pk] text lang plaintext t = .ok (ct, t')) :
    ∃ (c : CtAttr G2 Gt) (m : MskAttr F) (r : F) (msg : Gt), ct.c = [c] ∧ c.c2 = r • gk.g2 ∧ m ∈ a.msk.attr ∧
      m.name = attr ∧ decryptSymmetric env msg ct.ct = .ok plaintext ∧
      decrypt env gk { skv with gid := u } ct =
        decryptSymmetric env (msg - (r * m.y * (env.hash u - env.hash v)) • env.pair gk.g1 gk.g2) ct.ct := by
  obtain ⟨L, hL, hLn, hA⟩ := authorities_ok (auths := [a]) (by simpa using ha)
  obtain ⟨hApk, hAmsk, hApn, hAmn⟩ := hA a (by simp)
  simp only [List.flatMap_cons, List.flatMap_nil, List.append_nil] at hLn
  have hup : ∀ x ∈ L, cm.upper x.1.name = x.1.name := by
    intro x hx
    have : x.1.name ∈ L.map (·.1.name) := List.mem_map.2 ⟨x, hx, rfl⟩
    rw [hLn] at this
    obtain ⟨n, _, hn⟩ := List.mem_map.1 this
    rw [← hn, cm.upper_idem]
  -- the key
  unfold keygen at hkey
  split at hkey
  · simp at hkey
  split at hkey
  · simp at hkey
  simp only [Res.foldR, Res.rbind_eq, Res.bind_eq_ok, Res.ok.injEq] at hkey
  obtain ⟨sk1, hadd, rfl⟩ := hkey
  obtain ⟨_, _, x, hx, hxn, hxm, rfl⟩ := addToAttribute_ok hL hup hAmsk hadd
  have hua : cm.upper attr = attr := by rw [← hxn]; exact hup x hx
  -- the ciphertext
  obtain ⟨_, msg, s, ω, ω', hc, hd⟩ := encrypt_ok hp henc
  obtain ⟨C, hC1, hC2⟩ := hc.c
  have hsh : ∀ (σ : F) ω, shares (.leaf attr pos) σ ω = [(nodeIndex attr pos, σ)] := fun σ ω => by
    simp [shares, shareVals, leafIdx]
  rw [hsh, hsh] at hC2
  simp only [List.zipIdx_cons, List.zipIdx_nil] at hC2
  cases hC2 with
  | cons h1 h2 =>
    cases h2
    rename_i y
    simp only [CaseMap.upper_nodeIndex, hua, removeIndex_nodeIndex _ hname] at h1
    have hex : ∃ b, findPkAttr attr [a.pk] = some b := by
      refine findPkAttr_exists ⟨a.pk, by simp, ?_⟩
      rw [hApn, ← hLn, ← hxn]
      exact List.mem_map.2 ⟨x, hx, rfl⟩
    obtain ⟨b, hb⟩ := hex
    rcases h1 with ⟨h1, _⟩ | ⟨b', r, w, hb', hw, rfl⟩
    · rw [hb] at h1; simp at h1
    · rw [hb] at hb'
      obtain rfl := Option.some.inj hb'
      obtain ⟨hbn, pk, hpk, hbm⟩ := findPkAttr_some hb
      obtain rfl := List.mem_singleton.1 hpk
      obtain ⟨z, hz, rfl⟩ := hApk b hbm
      have hzx : z = x := List.inj_on_of_nodup_map (hLn ▸ hdistinct) hz hx (by rw [hbn, hxn])
      subst hzx
      simp only [List.getElem?_cons_zero, Option.some.injEq] at hw
      subst hw
      refine ⟨_, z.2, r, msg, hC1, rfl, hxm, by rw [(hL z hz).name, hxn], hd, ?_⟩
      have hpol : parse ct.policy.1 ct.policy.2 = .ok (.str attr pos) := hc.policy
      have ht : traversePolicy [attr] (.str attr pos) .leaf = true := by
        rw [show PolicyValue.str attr pos = (Pol.leaf attr pos).toValue from rfl, traverse_eq_sat _ (by simp)]
        simp
      have hpr : calcPruned [attr] (.str attr pos) none = .ok (true, [(attr, nodeIndex attr pos)]) := by
        rw [show PolicyValue.str attr pos = (Pol.leaf attr pos).toValue from rfl,
          calcPruned_eq _ _ (by simp [Pol.Wide])]
        simp [pick, leafKey]
      have hco : calcCoefficients (.str attr pos) (some (1 : F)) [] none = .ok (some [(nodeIndex attr pos, 1)]) := by
        rw [show PolicyValue.str attr pos = (Pol.leaf attr pos).toValue from rfl, calcCoefficients_eq]
        simp [coeffs, coeffVals, leafIdx]
      simp only [decrypt, hpol, Res.ok_bind, List.nil_append, List.map_cons, List.map_nil, ht, hpr, hco,
        Bool.true_eq_false, if_false, if_true, Res.unwrapOption_some, Res.foldR, Res.rbind_eq, decryptStep,
        List.find?_cons, beq_self_eq_true, hC1, List.filterMap_cons, List.filterMap_nil, id]
      congr 1
      rw [hc.c0, (hL z hz).e, (hL z hz).y]
      simp only [Env.sha3Hash, map_smul, map_add, LinearMap.smul_apply, LinearMap.add_apply]
      module

/-- The hypotheses can be met: an authority for `A`, a key of `V` for `A`, a message for `"A"`. -/
example (gk : GlobalKey Fr Fr) : ∃ (a : Authority Fr Fr Fr) (skv : SecretKey Fr) (ct : Ciphertext Fr Fr)
    (t t' : Tape Fr Fr Fr Fr), a.Genuine asciiCase toyEnv gk ∧ (a.names.map asciiCase.upper).Nodup ∧
    keygen asciiCase toyEnv gk a.msk ['V'] [['A']] = .ok skv ∧ Denotes (chars% "\"A\"") .human (.leaf ['A'] 2) ∧
    encrypt asciiCase toyEnv gk [a.pk] (chars% "\"A\"") .human [7] t = .ok (ct, t') := by
  obtain ⟨_, d2, d3⟩ := C38_aw11_defined asciiCase toyEnv
  obtain ⟨pk, msk, t', h⟩ := d2 gk [['A']] (by simp) toyTape
  obtain ⟨ct, t'', hct⟩ := d3 gk [pk] (chars% "\"A\"") .human (.leaf ['A'] 2) rfl (by simp [Pol.Binary]) [7]
    (by simp [toyEnv]) toyTape
  have hG : (⟨[['A']], pk, msk⟩ : Authority Fr Fr Fr).Genuine asciiCase toyEnv gk := ⟨_, _, h⟩
  obtain ⟨sk, hsk⟩ := (C38_aw11_defined_add asciiCase toyEnv gk ⟨[['A']], pk, msk⟩ hG ['A'] ⟨['V'], []⟩).2
    ⟨by simp, by simp, List.mem_singleton.2 rfl⟩
  refine ⟨⟨[['A']], pk, msk⟩, sk, ct, _, _, hG, List.nodup_singleton _, ?_, rfl, hct⟩
  simp only [keygen, Res.foldR, Res.rbind_eq, hsk]
  rfl

end Aw11
end Rabe
