import Verif.Props.Aw11

/-!
# C41: three AW11 users without a common attribute

The children of an OR gate receive the same shares, so two keys for different children serve as two keys for the same
attribute.
-/

set_option linter.unusedSectionVars false

namespace Rabe
namespace Aw11

variable {F G1 G2 Gt : Type} [Field F] [DecidableEq F] [AddCommGroup G1] [Module F G1]
  [AddCommGroup G2] [Module F G2] [AddCommGroup Gt] [Module F Gt]

/-- What one key component gives of one ciphertext component, the summand of the loop in `decrypt`
(`/repo/src/schemes/aw11/mod.rs:327-349`) without its coefficient. -/
def openOne (env : Env F G1 G2 Gt) (gk : GlobalKey G1 G2) (gid : Str) (k : Str × G1) (c : CtAttr G2 Gt) : Gt :=
  c.c1 + env.pair (env.sha3Hash gk.g1 gid) c.c3 - env.pair k.2 c.c2

/-- What three users with one component each compute from a ciphertext with three components (an attack, not code of
the library): the session element for the policies of the shape `A and (B or C)`. -/
def openThree (env : Env F G1 G2 Gt) (gk : GlobalKey G1 G2) (sk₁ sk₂ sk₃ : SecretKey G1) (ct : Ciphertext G2 Gt) :
    Option Gt :=
  match sk₁.attr, sk₂.attr, sk₃.attr, ct.c with
  | [k₁], [k₂], [k₃], [c₁, c₂, c₃] =>
    let x₁ := openOne env gk sk₁.gid k₁ c₁
    let x₂ := openOne env gk sk₂.gid k₂ c₂
    let x₃ := openOne env gk sk₃.gid k₃ c₃
    let w := (env.hash sk₂.gid - env.hash sk₃.gid)⁻¹ • (x₂ - x₃)
    some (ct.c0 - ((2 : F) • x₁ - x₂ + (env.hash sk₂.gid - env.hash sk₁.gid) • w))
  | _, _, _, _ => none

/-- The key `keygen` issues for one attribute. -/
theorem keygen_one {cm : CaseMap} {env : Env F G1 G2 Gt} {gk : GlobalKey G1 G2} {L : List (PubAttr G2 Gt × MskAttr F)}
    (hL : ∀ x ∈ L, Matching env gk x) (hup : ∀ x ∈ L, cm.upper x.1.name = x.1.name)
    {msk : MasterKey F} (hm : ∀ a ∈ msk.attr, ∃ x ∈ L, x.2 = a) {u attr : Str} {sk : SecretKey G1}
    (h : keygen cm env gk msk u [attr] = .ok sk) :
    ∃ x ∈ L, x.1.name = attr ∧ sk = ⟨u, [(attr, x.2.alpha • gk.g1 + x.2.y • env.hash u • gk.g1)]⟩ := by
  unfold keygen at h
  split at h
  · simp at h
  split at h
  · simp at h
  simp only [Res.foldR, Res.rbind_eq, Res.bind_eq_ok, Res.ok.injEq] at h
  obtain ⟨sk1, hadd, rfl⟩ := h
  obtain ⟨_, _, x, hx, hxn, _, rfl⟩ := addToAttribute_ok hL hup hm hadd
  exact ⟨x, hx, hxn, rfl⟩

/-- **C41 is violated by users without a common attribute.** For every policy `A and (B or C)`: three users with one
attribute each, none of whom can decrypt, compute the session element together. -/
theorem C41_violated_siblings [BigChar F] (cm : CaseMap) (env : Env F G1 G2 Gt) (gk : GlobalKey G1 G2)
    (a : Authority F G2 Gt) (ha : a.Genuine cm env gk) (hdistinct : (a.names.map cm.upper).Nodup)
    (u₁ u₂ u₃ A B C : Str) (hA : '_' ∉ A) (hB : '_' ∉ B) (hC : '_' ∉ C) (hAB : A ≠ B) (hAC : A ≠ C)
    (hh : env.hash u₂ ≠ env.hash u₃) (sk₁ sk₂ sk₃ : SecretKey G1)
    (h₁ : keygen cm env gk a.msk u₁ [A] = .ok sk₁) (h₂ : keygen cm env gk a.msk u₂ [B] = .ok sk₂)
    (h₃ : keygen cm env gk a.msk u₃ [C] = .ok sk₃)
    (text : Str) (lang : PolicyLanguage) (i j k : ℕ)
    (hp : Denotes text lang (.gate .and [.leaf A i, .gate .or [.leaf B j, .leaf C k]]))
    (plaintext : Bytes) (t t' : Tape F G1 G2 Gt) (ct : Ciphertext G2 Gt)
    (henc : encrypt cm env gk [a.pk] text lang plaintext t = .ok (ct, t')) :
    decrypt env gk sk₁ ct = .err ∧ decrypt env gk sk₂ ct = .err ∧ decrypt env gk sk₃ ct = .err ∧
      ∃ m, openThree env gk sk₁ sk₂ sk₃ ct = some m ∧ decryptSymmetric env m ct.ct = .ok plaintext := by
  obtain ⟨L, hL, hLn, hA'⟩ := authorities_ok (auths := [a]) (by simpa using ha)
  obtain ⟨hApk, hAmsk, hApn, hAmn⟩ := hA' a (by simp)
  simp only [List.flatMap_cons, List.flatMap_nil, List.append_nil] at hLn
  have hup : ∀ x ∈ L, cm.upper x.1.name = x.1.name := by
    intro x hx
    have : x.1.name ∈ L.map (·.1.name) := List.mem_map.2 ⟨x, hx, rfl⟩
    rw [hLn] at this
    obtain ⟨n, _, hn⟩ := List.mem_map.1 this
    rw [← hn, cm.upper_idem]
  obtain ⟨x₁, hx₁, hn₁, rfl⟩ := keygen_one hL hup hAmsk h₁
  obtain ⟨x₂, hx₂, hn₂, rfl⟩ := keygen_one hL hup hAmsk h₂
  obtain ⟨x₃, hx₃, hn₃, rfl⟩ := keygen_one hL hup hAmsk h₃
  have hfind : ∀ x ∈ L, findPkAttr x.1.name [a.pk] = some x.1 := by
    intro x hx
    obtain ⟨b, hb⟩ : ∃ b, findPkAttr x.1.name [a.pk] = some b := by
      refine findPkAttr_exists ⟨a.pk, by simp, ?_⟩
      rw [hApn, ← hLn]
      exact List.mem_map.2 ⟨x, hx, rfl⟩
    obtain ⟨hbn, pk, hpk, hbm⟩ := findPkAttr_some hb
    obtain rfl := List.mem_singleton.1 hpk
    obtain ⟨z, hz, rfl⟩ := hApk b hbm
    rw [hb, List.inj_on_of_nodup_map (hLn ▸ hdistinct) hz hx hbn]
  have hf₁ := hfind x₁ hx₁
  have hf₂ := hfind x₂ hx₂
  have hf₃ := hfind x₃ hx₃
  rw [hn₁] at hf₁
  rw [hn₂] at hf₂
  rw [hn₃] at hf₃
  have hu₁ : cm.upper A = A := by rw [← hn₁]; exact hup _ hx₁
  have hu₂ : cm.upper B = B := by rw [← hn₂]; exact hup _ hx₂
  have hu₃ : cm.upper C = C := by rw [← hn₃]; exact hup _ hx₃
  obtain ⟨_, msg, s, ω, ω', hc, hd⟩ := encrypt_ok hp henc
  have hrej : ∀ (g : Str) (n : Str) (e : G1), (Pol.gate .and [.leaf A i, .gate .or [.leaf B j, .leaf C k]]).sat [n] = false →
      decrypt env gk ⟨g, [(n, e)]⟩ ct = .err := by
    intro g n e hs
    rw [← traverse_eq_sat _ (by simp) _ .leaf] at hs
    simp only [decrypt, hc.policy, Res.ok_bind, List.map_cons, List.map_nil, hs, if_true]
  refine ⟨hrej _ _ _ (by simp [hAB.symm, hAC.symm]), hrej _ _ _ (by simp [hAB]), hrej _ _ _ (by simp [hAC]), ?_⟩
  obtain ⟨D, hD1, hD2⟩ := hc.c
  have hsh : ∀ (σ : F) (ω : ℕ → F), shares (.gate .and [.leaf A i, .gate .or [.leaf B j, .leaf C k]]) σ ω =
      [(nodeIndex A i, σ + ω 0), (nodeIndex B j, σ + 2 * ω 0), (nodeIndex C k, σ + 2 * ω 0)] := fun σ ω => by
    simp [shares, shareVals, shareValsL, leafIdx, gateShare, thr, polynomial, polynomialFrom]
    ring
  rw [hsh, hsh] at hD2
  simp only [List.zipIdx_cons, List.zipIdx_nil] at hD2
  obtain _ | ⟨d₁, hD2⟩ := hD2
  obtain _ | ⟨d₂, hD2⟩ := hD2
  obtain _ | ⟨d₃, hD2⟩ := hD2
  cases hD2
  simp only [CaseMap.upper_nodeIndex, hu₁, hu₂, hu₃, removeIndex_nodeIndex _ hA, removeIndex_nodeIndex _ hB,
    removeIndex_nodeIndex _ hC, hf₁, hf₂, hf₃] at d₁ d₂ d₃
  rcases d₁ with ⟨d₁, _⟩ | ⟨b₁, r₁, w₁, e₁, hw₁, rfl⟩
  · simp at d₁
  rcases d₂ with ⟨d₂, _⟩ | ⟨b₂, r₂, w₂, e₂, hw₂, rfl⟩
  · simp at d₂
  rcases d₃ with ⟨d₃, _⟩ | ⟨b₃, r₃, w₃, e₃, hw₃, rfl⟩
  · simp at d₃
  obtain rfl := Option.some.inj e₁
  obtain rfl := Option.some.inj e₂
  obtain rfl := Option.some.inj e₃
  simp at hw₁ hw₂ hw₃
  subst hw₁ hw₂ hw₃
  have hne : env.hash u₂ - env.hash u₃ ≠ 0 := sub_ne_zero.2 hh
  refine ⟨msg, ?_, hd⟩
  simp only [openThree, hD1, List.filterMap_cons, List.filterMap_nil, id, Option.some.injEq]
  rw [hc.c0]
  simp only [openOne, Env.sha3Hash, (hL _ hx₁).e, (hL _ hx₁).y, (hL _ hx₂).e, (hL _ hx₂).y, (hL _ hx₃).e, (hL _ hx₃).y,
    map_smul, map_add, LinearMap.smul_apply, LinearMap.add_apply]
  match_scalars <;> field_simp <;> ring

/-- The users `U`, `V`, `W` hold `A`, `B` and `C`. Nobody can decrypt a message for `"A" and ("B" or "C")`; together they
find the session element. -/
example : (do
    let x ← setup toyTape
    let y ← authgen asciiCase toyEnv x.1 [['A'], ['B'], ['C']] { toyTape with fr := fun n => n + 2 }
    let a ← Res.unwrapOption y.1
    let u ← keygen asciiCase toyEnv x.1 a.2 ['U'] [['A']]
    let v ← keygen asciiCase toyEnv x.1 a.2 ['V'] [['B']]
    let w ← keygen asciiCase toyEnv x.1 a.2 ['W'] [['C']]
    let z ← encrypt asciiCase toyEnv x.1 [a.1] (chars% "\"A\" and (\"B\" or \"C\")") .human [1, 2, 3]
      { toyTape with fr := fun n => n + 3 }
    let m ← Res.unwrapOption (openThree toyEnv x.1 u v w z.1)
    Res.ok (decrypt toyEnv x.1 u z.1, decrypt toyEnv x.1 v z.1, decrypt toyEnv x.1 w z.1,
      decryptSymmetric toyEnv m z.1.ct)) =
    .ok (.err, .err, .err, .ok [1, 2, 3]) := by decide +kernel

/-- The hypotheses on names, hashes and the policy can be met. -/
example : toyEnv.hash ['V'] ≠ toyEnv.hash ['W'] ∧ Denotes (chars% "\"A\" and (\"B\" or \"C\")") .human
    (.gate .and [.leaf ['A'] 2, .gate .or [.leaf ['B'] 11, .leaf ['C'] 18]]) := ⟨by decide +kernel, rfl⟩

end Aw11
end Rabe
