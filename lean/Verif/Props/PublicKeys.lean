import Verif.Props.Aw11
import Verif.Props.Bdabe
import Verif.Props.Mke08
import Verif.Props.Lsw

/-!
# Property C100: the list of public keys given to `encrypt`

AW11, BDABE and MKE08 take the public keys of the authorities as a list. Its order, keys of attributes that the policy does not
mention, and repeated keys.
-/

namespace Rabe

set_option linter.unusedSectionVars false

variable {F G1 G2 Gt : Type} [Field F] [DecidableEq F] [AddCommGroup G1] [Module F G1]
  [AddCommGroup G2] [Module F G2] [AddCommGroup Gt] [Module F Gt]

/-- In a list with pairwise different names there is at most one entry of a name. -/
theorem filter_one {α : Type} (name : α → Str) {xs : List α} (hn : (xs.map name).Nodup) (n : Str) :
    (xs.filter fun x => name x = n).length ≤ 1 := by
  induction xs with
  | nil => simp
  | cons x xs ih =>
    rw [List.map_cons, List.nodup_cons] at hn
    by_cases hx : name x = n
    · have : xs.filter (fun x => name x = n) = [] := by
        rw [List.filter_eq_nil_iff]
        intro y hy e
        exact hn.1 (List.mem_map.2 ⟨y, hy, by rw [hx]; simpa using e⟩)
      simp [hx, this]
    · simpa [hx] using ih hn.2

theorem eq_of_perm_one {α : Type} {xs ys : List α} (h : ys.Perm xs) (hl : xs.length ≤ 1) : ys = xs := by
  match xs, hl with
  | [], _ => exact h.eq_nil
  | [a], _ => exact List.perm_singleton.1 h
  | _ :: _ :: _, hl => rw [List.length_cons, List.length_cons] at hl; omega

/-- The entries of name `n` in a rearrangement of `xs` and of entries of other names. -/
theorem filter_rearranged {α : Type} (name : α → Str) {xs extra ys : List α} (hn : (xs.map name).Nodup) (n : Str)
    (hx : ∀ x ∈ extra, name x ≠ n) (h : ys.Perm (xs ++ extra)) :
    (ys.filter fun x => name x = n) = xs.filter fun x => name x = n := by
  have hf : (extra.filter fun x => name x = n) = [] := by
    rw [List.filter_eq_nil_iff]
    intro k hk e
    exact hx k hk (by simpa using e)
  have h1 := h.filter fun x => decide (name x = n)
  rw [List.filter_append, hf, List.append_nil] at h1
  exact eq_of_perm_one h1 (filter_one name hn n)

/-! ## The normal form -/

theorem leafStep_filter (n : Str) (i : ℕ) : ∀ (pks : List (PubAttr G1 G2 Gt)) (terms : List (DnfTerm G1 G2 Gt)),
    pks.foldl (dnfLeafStep n i) terms = (pks.filter fun k => k.attr = n).foldl (dnfLeafStep n i) terms := by
  intro pks
  induction pks with
  | nil => intro _; rfl
  | cons k pks ih =>
    intro terms
    by_cases hk : k.attr = n
    · simp [hk, ih]
    · simp [hk, ih, dnfLeafStep]

theorem dnf_filter {pks pks' : List (PubAttr G1 G2 Gt)} (p : Pol)
    (h : ∀ n ∈ p.names, (pks.filter fun k => k.attr = n) = pks'.filter fun k => k.attr = n) :
    ∀ terms i parent, dnf pks p.toValue terms i parent = dnf pks' p.toValue terms i parent := by
  induction p using Pol.ind with
  | hl n c =>
    intro terms i parent
    simp only [Pol.toValue_leaf, dnf, leafStep_filter n i pks, leafStep_filter n i pks', h n (by simp [Pol.names])]
  | hg op cs ih =>
    have hc : ∀ c ∈ cs, ∀ terms i parent, dnf pks c.toValue terms i parent = dnf pks' c.toValue terms i parent := by
      intro c hc
      refine ih c hc fun n hn => h n ?_
      simp only [Pol.names, Pol.leaves_gate, List.map_flatMap, List.mem_flatMap] at hn ⊢
      exact ⟨c, hc, hn⟩
    clear ih h
    have ha : ∀ terms i ret, dnfAnd pks (cs.map Pol.toValue) terms i ret = dnfAnd pks' (cs.map Pol.toValue) terms i ret := by
      induction cs with
      | nil => intro _ _ _; simp [dnfAnd]
      | cons c cs ihc =>
        intro terms i ret
        have := ihc fun d hd => hc d (by simp [hd])
        cases ret <;> simp [dnfAnd, hc c (by simp), this]
    have ho : ∀ terms i ret, dnfOr pks (cs.map Pol.toValue) terms i ret = dnfOr pks' (cs.map Pol.toValue) terms i ret := by
      clear ha
      induction cs with
      | nil => intro _ _ _; simp [dnfOr]
      | cons c cs ihc =>
        intro terms i ret
        have := ihc fun d hd => hc d (by simp [hd])
        cases ret <;> simp [dnfOr, hc c (by simp), this]
    intro terms i parent
    cases op <;> rcases parent with _ | _ | _ | _ <;> simp [dnf, ha, ho, Op.toType]

theorem fromString_filter {text : Str} {lang : PolicyLanguage} {p : Pol} (hp : Denotes text lang p)
    {pks pks' : List (PubAttr G1 G2 Gt)}
    (h : ∀ n ∈ p.names, (pks.filter fun k => k.attr = n) = pks'.filter fun k => k.attr = n) :
    DnfPolicy.fromString text pks lang = DnfPolicy.fromString text pks' lang := by
  simp only [DnfPolicy.fromString, show parse text lang = _ from hp, Res.ok_bind, jsonToDnf, dnf_filter p h]

namespace Bdabe

/-- **C100, BDABE.** Only the public keys of each attribute of the policy, in their order, matter. -/
theorem C100_bdabe_lookup (env : Env F G1 G2 Gt) (pk : PublicKey G1 G2 Gt) {text : Str} {lang : PolicyLanguage} {p : Pol}
    (hp : Denotes text lang p) (pks pks' : List (PublicAttributeKey G1 G2 Gt))
    (h : ∀ n ∈ p.names, (pks.filter fun k => k.attr = n) = pks'.filter fun k => k.attr = n) (pt : Bytes) :
    encrypt env pk pks text lang pt = encrypt env pk pks' text lang pt := by
  have : DnfPolicy.fromString text (pks.map PublicAttributeKey.view) lang =
      DnfPolicy.fromString text (pks'.map PublicAttributeKey.view) lang := by
    refine fromString_filter hp fun n hn => ?_
    rw [List.filter_map, List.filter_map]
    exact congrArg _ (h n hn)
  simp only [encrypt, this]

/-- **C100, BDABE, partial.** Keys of different attributes: neither the order nor keys of attributes that the policy does not
mention change the ciphertext. (Full claim: also a key given twice; false, see `C100_bdabe_violated`.) -/
theorem C100_bdabe_partial (env : Env F G1 G2 Gt) (pk : PublicKey G1 G2 Gt) {text : Str} {lang : PolicyLanguage} {p : Pol}
    (hp : Denotes text lang p) (pks extra list : List (PublicAttributeKey G1 G2 Gt)) (hn : (pks.map (·.attr)).Nodup)
    (hx : ∀ k ∈ extra, k.attr ∉ p.names) (hl : list.Perm (pks ++ extra)) (pt : Bytes) :
    encrypt env pk list text lang pt = encrypt env pk pks text lang pt := by
  exact C100_bdabe_lookup env pk hp _ _
    (fun n hnn => filter_rearranged (·.attr) hn n (fun k hk e => hx k hk (e ▸ hnn)) hl) pt

/-- **C100 is violated by BDABE.** The same public key given twice gives another ciphertext. -/
theorem C100_bdabe_violated : ∃ (pk : PublicKey Fr Fr Fr) (msk : MasterKey Fr) (auth : SecretAuthorityKey Fr Fr Fr)
    (k : PublicAttributeKey Fr Fr Fr) (ct ct' : Ciphertext Fr Fr Fr) (t₁ t₂ t₃ t₄ : Tape Fr Fr Fr Fr),
    setup toyEnv toyTape = .ok ((pk, msk), t₁) ∧ authgen pk msk (chars% "A") toyTape = .ok (auth, t₂) ∧
    requestAttributePk toyEnv pk auth (chars% "A::a") = .ok k ∧
    encrypt toyEnv pk [k] (chars% "\"A::a\"") .human [7] toyTape = .ok (ct, t₃) ∧
    encrypt toyEnv pk [k, k] (chars% "\"A::a\"") .human [7] toyTape = .ok (ct', t₄) ∧
    ct.j.map (·.attr) = [[chars% "A::a"]] ∧ ct'.j.map (·.attr) = [[chars% "A::a", chars% "A::a"]] := by
  have h : (do
    let x ← setup toyEnv toyTape
    let a ← authgen x.1.1 x.1.2 (chars% "A") toyTape
    let k ← requestAttributePk toyEnv x.1.1 a.1 (chars% "A::a")
    let z ← encrypt toyEnv x.1.1 [k] (chars% "\"A::a\"") .human [7] toyTape
    let w ← encrypt toyEnv x.1.1 [k, k] (chars% "\"A::a\"") .human [7] toyTape
    .ok (z.1.j.map (·.attr), w.1.j.map (·.attr)) : Res (List (List Str) × List (List Str))) =
      .ok ([[chars% "A::a"]], [[chars% "A::a", chars% "A::a"]]) := by decide +kernel
  simp only [Res.bind_eq_ok, Res.ok.injEq, Prod.mk.injEq] at h
  obtain ⟨⟨⟨pk, msk⟩, t1⟩, h1, ⟨a, t2⟩, h2, k, h3, ⟨ct, t3⟩, h4, ⟨ct', t4⟩, h5, h6, h7⟩ := h
  exact ⟨pk, msk, a, k, ct, ct', t1, t2, t3, t4, h1, h2, h3, h4, h5, h6, h7⟩

/-- Keys for two attributes of the policy, in the other order and with a key of a third attribute between them. -/
example : ∃ (p : Pol) (k₁ k₂ k₃ : PublicAttributeKey Fr Fr Fr), Denotes (chars% "\"A::a\" or \"A::b\"") .human p ∧
    ([k₁, k₂].map (·.attr)).Nodup ∧ (∀ k ∈ [k₃], k.attr ∉ p.names) ∧ [k₂, k₃, k₁].Perm ([k₁, k₂] ++ [k₃]) ∧
    ∀ pk pt, encrypt toyEnv pk [k₂, k₃, k₁] (chars% "\"A::a\" or \"A::b\"") .human pt =
      encrypt toyEnv pk [k₁, k₂] (chars% "\"A::a\" or \"A::b\"") .human pt := by
  have hp : Denotes (chars% "\"A::a\" or \"A::b\"") .human (.gate .or [.leaf (chars% "A::a") 2, .leaf (chars% "A::b") 12]) :=
    rfl
  have hn : ([(⟨chars% "A::a", 1, 2, 3⟩ : PublicAttributeKey Fr Fr Fr), ⟨chars% "A::b", 4, 5, 6⟩].map (·.attr)).Nodup := by
    simp
  have hx : ∀ k ∈ [(⟨chars% "A::c", 7, 8, 9⟩ : PublicAttributeKey Fr Fr Fr)],
      k.attr ∉ (Pol.gate .or [.leaf (chars% "A::a") 2, .leaf (chars% "A::b") 12]).names := by simp [Pol.names]
  have hl : [(⟨chars% "A::b", 4, 5, 6⟩ : PublicAttributeKey Fr Fr Fr), ⟨chars% "A::c", 7, 8, 9⟩, ⟨chars% "A::a", 1, 2, 3⟩].Perm
      ([⟨chars% "A::a", 1, 2, 3⟩, ⟨chars% "A::b", 4, 5, 6⟩] ++ [⟨chars% "A::c", 7, 8, 9⟩]) :=
    (List.perm_append_singleton (⟨chars% "A::a", 1, 2, 3⟩ : PublicAttributeKey Fr Fr Fr)
      [⟨chars% "A::b", 4, 5, 6⟩, ⟨chars% "A::c", 7, 8, 9⟩])
  exact ⟨_, _, _, _, hp, hn, hx, hl, fun pk pt => C100_bdabe_partial toyEnv pk hp _ _ _ hn hx hl pt⟩

end Bdabe

namespace Mke08

/-- **C100, MKE08.** Only the public keys of each attribute of the policy, in their order, matter. -/
theorem C100_mke08_lookup (env : Env F G1 G2 Gt) (pk : PublicKey G1 G2 Gt) {text : Str} {lang : PolicyLanguage} {p : Pol}
    (hp : Denotes text lang p) (pks pks' : List (PublicAttributeKey G1 G2 Gt))
    (h : ∀ n ∈ p.names, (pks.filter fun k => k.attr = n) = pks'.filter fun k => k.attr = n) (pt : Bytes) :
    encrypt env pk pks text lang pt = encrypt env pk pks' text lang pt := by
  have : DnfPolicy.fromString text (pks.map PublicAttributeKey.view) lang =
      DnfPolicy.fromString text (pks'.map PublicAttributeKey.view) lang := by
    refine fromString_filter hp fun n hn => ?_
    rw [List.filter_map, List.filter_map]
    exact congrArg _ (h n hn)
  simp only [encrypt, this]

/-- **C100, MKE08, partial.** Keys of different attributes: neither the order nor keys of attributes that the policy does not
mention change the ciphertext. (Full claim: also a key given twice; false, see `C100_mke08_violated`.) -/
theorem C100_mke08_partial (env : Env F G1 G2 Gt) (pk : PublicKey G1 G2 Gt) {text : Str} {lang : PolicyLanguage} {p : Pol}
    (hp : Denotes text lang p) (pks extra list : List (PublicAttributeKey G1 G2 Gt)) (hn : (pks.map (·.attr)).Nodup)
    (hx : ∀ k ∈ extra, k.attr ∉ p.names) (hl : list.Perm (pks ++ extra)) (pt : Bytes) :
    encrypt env pk list text lang pt = encrypt env pk pks text lang pt := by
  exact C100_mke08_lookup env pk hp _ _
    (fun n hnn => filter_rearranged (·.attr) hn n (fun k hk e => hx k hk (e ▸ hnn)) hl) pt

/-- **C100 is violated by MKE08.** The same public key given twice gives another ciphertext. -/
theorem C100_mke08_violated : ∃ (pk : PublicKey Fr Fr Fr) (msk : MasterKey Fr Fr) (auth : SecretAuthorityKey Fr)
    (k : PublicAttributeKey Fr Fr Fr) (ct ct' : Ciphertext Fr Fr Fr) (t₁ t₂ t₃ t₄ : Tape Fr Fr Fr Fr),
    setup toyEnv toyTape = .ok ((pk, msk), t₁) ∧ authgen (chars% "A") toyTape = .ok (auth, t₂) ∧
    requestAuthorityPk toyEnv pk (chars% "A::a") auth = .ok k ∧
    encrypt toyEnv pk [k] (chars% "\"A::a\"") .human [7] toyTape = .ok (ct, t₃) ∧
    encrypt toyEnv pk [k, k] (chars% "\"A::a\"") .human [7] toyTape = .ok (ct', t₄) ∧
    ct.e.map (·.str) = [[chars% "A::a"]] ∧ ct'.e.map (·.str) = [[chars% "A::a", chars% "A::a"]] := by
  have h : (do
    let x ← setup toyEnv toyTape
    let a ← authgen (chars% "A") toyTape
    let k ← requestAuthorityPk toyEnv x.1.1 (chars% "A::a") a.1
    let z ← encrypt toyEnv x.1.1 [k] (chars% "\"A::a\"") .human [7] toyTape
    let w ← encrypt toyEnv x.1.1 [k, k] (chars% "\"A::a\"") .human [7] toyTape
    .ok (z.1.e.map (·.str), w.1.e.map (·.str)) : Res (List (List Str) × List (List Str))) =
      .ok ([[chars% "A::a"]], [[chars% "A::a", chars% "A::a"]]) := by decide +kernel
  simp only [Res.bind_eq_ok, Res.ok.injEq, Prod.mk.injEq] at h
  obtain ⟨⟨⟨pk, msk⟩, t1⟩, h1, ⟨a, t2⟩, h2, k, h3, ⟨ct, t3⟩, h4, ⟨ct', t4⟩, h5, h6, h7⟩ := h
  exact ⟨pk, msk, a, k, ct, ct', t1, t2, t3, t4, h1, h2, h3, h4, h5, h6, h7⟩

/-- Keys for two attributes of the policy, in the other order and with a key of a third attribute between them. -/
example : ∃ (p : Pol) (k₁ k₂ k₃ : PublicAttributeKey Fr Fr Fr), Denotes (chars% "\"A::a\" or \"A::b\"") .human p ∧
    ([k₁, k₂].map (·.attr)).Nodup ∧ (∀ k ∈ [k₃], k.attr ∉ p.names) ∧ [k₂, k₃, k₁].Perm ([k₁, k₂] ++ [k₃]) ∧
    ∀ pk pt, encrypt toyEnv pk [k₂, k₃, k₁] (chars% "\"A::a\" or \"A::b\"") .human pt =
      encrypt toyEnv pk [k₁, k₂] (chars% "\"A::a\" or \"A::b\"") .human pt := by
  have hp : Denotes (chars% "\"A::a\" or \"A::b\"") .human (.gate .or [.leaf (chars% "A::a") 2, .leaf (chars% "A::b") 12]) :=
    rfl
  have hn : ([(⟨chars% "A::a", 1, 2, 3, 4⟩ : PublicAttributeKey Fr Fr Fr), ⟨chars% "A::b", 5, 6, 7, 8⟩].map (·.attr)).Nodup := by
    simp
  have hx : ∀ k ∈ [(⟨chars% "A::c", 9, 10, 11, 12⟩ : PublicAttributeKey Fr Fr Fr)],
      k.attr ∉ (Pol.gate .or [.leaf (chars% "A::a") 2, .leaf (chars% "A::b") 12]).names := by simp [Pol.names]
  have hl : [(⟨chars% "A::b", 5, 6, 7, 8⟩ : PublicAttributeKey Fr Fr Fr), ⟨chars% "A::c", 9, 10, 11, 12⟩, ⟨chars% "A::a", 1, 2, 3, 4⟩].Perm
      ([⟨chars% "A::a", 1, 2, 3, 4⟩, ⟨chars% "A::b", 5, 6, 7, 8⟩] ++ [⟨chars% "A::c", 9, 10, 11, 12⟩]) :=
    (List.perm_append_singleton (⟨chars% "A::a", 1, 2, 3, 4⟩ : PublicAttributeKey Fr Fr Fr)
      [⟨chars% "A::b", 5, 6, 7, 8⟩, ⟨chars% "A::c", 9, 10, 11, 12⟩])
  exact ⟨_, _, _, _, hp, hn, hx, hl, fun pk pt => C100_mke08_partial toyEnv pk hp _ _ _ hn hx hl pt⟩

end Mke08

namespace Aw11

/-- All attributes of a list of public keys, in the order in which `find_pk_attr` goes through them
(`src/schemes/aw11/mod.rs:374`). -/
def published (pks : List (PublicKey G2 Gt)) : List (PubAttr G2 Gt) := pks.flatMap (·.attr)

theorem findPkAttr_published (n : Str) : ∀ pks : List (PublicKey G2 Gt),
    findPkAttr n pks = (published pks).find? fun a => a.name == n := by
  intro pks
  induction pks with
  | nil => rfl
  | cons pk pks ih =>
    simp only [published, List.flatMap_cons, List.find?_append, findPkAttr] at ih ⊢
    cases h : pk.attr.find? (fun a => a.name == n) with
    | none => simpa using ih
    | some a => simp

theorem mapL_congr {α β : Type} {f g : α → RM F G1 G2 Gt β} : ∀ {xs : List α}, (∀ x ∈ xs, f x = g x) →
    RM.mapL f xs = RM.mapL g xs := by
  intro xs
  induction xs with
  | nil => intro _; rfl
  | cons x xs ih =>
    intro h
    simp only [RM.mapL, h x (by simp), ih fun y hy => h y (by simp [hy])]

/-- **C100, AW11.** Only the first entry of each name that is looked up for a leaf matters: the name of the leaf in upper case, up
to the first underscore. -/
theorem C100_aw11_lookup (cm : CaseMap) (env : Env F G1 G2 Gt) (gk : GlobalKey G1 G2) {text : Str} {lang : PolicyLanguage}
    {p : Pol} (hp : Denotes text lang p) (pks pks' : List (PublicKey G2 Gt))
    (h : ∀ n ∈ p.names, ((published pks).find? fun a => a.name == (cm.upper n).takeWhile (· != '_')) =
      (published pks').find? fun a => a.name == (cm.upper n).takeWhile (· != '_')) (pt : Bytes) :
    encrypt cm env gk pks text lang pt = encrypt cm env gk pks' text lang pt := by
  have key : ∀ ws σ ω, RM.mapL (encShare cm env gk pks ws) (shares p σ ω).zipIdx =
      RM.mapL (encShare cm env gk pks' ws) (shares p σ ω).zipIdx := by
    intro ws σ ω
    refine mapL_congr fun x hx => ?_
    obtain ⟨l, hl, e⟩ := Lsw.mem_shares (List.fst_mem_of_mem_zipIdx hx)
    have hl' := h l.1 (List.mem_map.2 ⟨l, hl, rfl⟩)
    rw [← findPkAttr_published, ← findPkAttr_published] at hl'
    simp only [encShare, e, leafIdx, CaseMap.upper_nodeIndex, removeIndex_nodeIndex_eq, hl']
  funext t
  simp only [encrypt, RM.bind_apply, show parse text lang = _ from hp, RM.lift_ok]
  rcases Res.unwrap (calculateMsp p.toValue) with msp | _ | _
  · simp only [RM.lift_ok]
    rcases Res.index msp.m 0 with x | _ | _
    · simp only [RM.lift_ok, RM.liftFr, genSharesPolicy_eq, Res.unwrapOption_some, RM.genFr, key]
    · rfl
    · rfl
  · rfl
  · rfl

/-- **C100, AW11, partial.** Attributes of different names, names in the policy without underscore: neither the order nor
attributes that the policy does not mention change the ciphertext. (Full claim: also with underscores; false, see
`C100_aw11_violated`.) -/
theorem C100_aw11_partial (cm : CaseMap) (env : Env F G1 G2 Gt) (gk : GlobalKey G1 G2) {text : Str} {lang : PolicyLanguage}
    {p : Pol} (hp : Denotes text lang p) (hu : ∀ n ∈ p.names, '_' ∉ n) (pks extra list : List (PublicKey G2 Gt))
    (hn : ((published pks).map (·.name)).Nodup) (hx : ∀ a ∈ published extra, ∀ n ∈ p.names, a.name ≠ cm.upper n)
    (hl : (published list).Perm (published pks ++ published extra)) (pt : Bytes) :
    encrypt cm env gk list text lang pt = encrypt cm env gk pks text lang pt := by
  refine C100_aw11_lookup cm env gk hp _ _ (fun n hnn => ?_) pt
  have hw : (cm.upper n).takeWhile (· != '_') = cm.upper n := by
    have h : ∀ s : Str, '_' ∉ s → s.takeWhile (· != '_') = s := by
      intro s
      induction s with
      | nil => intro _; rfl
      | cons c s ih =>
        intro hs
        rw [List.mem_cons, not_or] at hs
        rw [List.takeWhile_cons, if_pos (by simpa using fun e => hs.1 e.symm), ih hs.2]
    exact h _ (cm.no_underscore (hu n hnn))
  rw [hw]
  have := filter_rearranged (·.name) hn (cm.upper n) (fun a ha e => hx a ha n hnn e) hl
  have hh : ∀ xs : List (PubAttr G2 Gt), (xs.find? fun a => a.name == cm.upper n) =
      (xs.filter fun a => a.name = cm.upper n).head? := by
    intro xs
    rw [List.head?_filter]
    congr 1
    funext a
    exact Bool.eq_iff_iff.2 (by simp)
  rw [hh, hh, this]

/-- **C100, AW11.** Public keys after the first ones of the same attributes do not change the ciphertext. -/
theorem C100_aw11_twice (cm : CaseMap) (env : Env F G1 G2 Gt) (gk : GlobalKey G1 G2) {text : Str} {lang : PolicyLanguage}
    {p : Pol} (hp : Denotes text lang p) (pks again : List (PublicKey G2 Gt))
    (hx : ∀ a ∈ published again, ∃ b ∈ published pks, b.name = a.name) (pt : Bytes) :
    encrypt cm env gk (pks ++ again) text lang pt = encrypt cm env gk pks text lang pt := by
  refine C100_aw11_lookup cm env gk hp _ _ (fun n _ => ?_) pt
  generalize (cm.upper n).takeWhile (· != '_') = m
  rw [published, List.flatMap_append, List.find?_append]
  show ((published pks).find? _).or ((published again).find? _) = _
  cases h1 : (published pks).find? fun a => a.name == m with
  | some a => rfl
  | none =>
    rw [List.find?_eq_none] at h1
    simp only [Option.none_or, List.find?_eq_none]
    intro a ha e
    obtain ⟨b, hb, hba⟩ := hx a ha
    exact h1 b hb (by rw [hba]; exact e)

/-- **C100 is violated by AW11.** The policy is `"A_B"`. The public key of another attribute, `A`, changes the ciphertext: it gets
a component. -/
theorem C100_aw11_violated : ∃ (gk : GlobalKey Fr Fr) (a b : PublicKey Fr Fr × MasterKey Fr) (ct ct' : Ciphertext Fr Fr)
    (t₁ t₂ t₃ t₄ t₅ : Tape Fr Fr Fr Fr), setup toyTape = .ok (gk, t₁) ∧
    authgen asciiCase toyEnv gk [chars% "A_B"] toyTape = .ok (some a, t₂) ∧
    authgen asciiCase toyEnv gk [chars% "A"] toyTape = .ok (some b, t₃) ∧
    encrypt asciiCase toyEnv gk [a.1] (chars% "\"A_B\"") .human [7] toyTape = .ok (ct, t₄) ∧
    encrypt asciiCase toyEnv gk [a.1, b.1] (chars% "\"A_B\"") .human [7] toyTape = .ok (ct', t₅) ∧
    ct.c.map (·.name) = [] ∧ ct'.c.map (·.name) = [chars% "A_B_2"] := by
  have h : (do
    let x ← setup toyTape
    let a ← authgen asciiCase toyEnv x.1 [chars% "A_B"] toyTape
    let a' ← Res.unwrapOption a.1
    let b ← authgen asciiCase toyEnv x.1 [chars% "A"] toyTape
    let b' ← Res.unwrapOption b.1
    let z ← encrypt asciiCase toyEnv x.1 [a'.1] (chars% "\"A_B\"") .human [7] toyTape
    let w ← encrypt asciiCase toyEnv x.1 [a'.1, b'.1] (chars% "\"A_B\"") .human [7] toyTape
    .ok (z.1.c.map (·.name), w.1.c.map (·.name)) : Res (List Str × List Str)) = .ok ([], [chars% "A_B_2"]) := by
    decide +kernel
  simp only [Res.bind_eq_ok, Res.ok.injEq, Prod.mk.injEq] at h
  obtain ⟨⟨gk, t1⟩, h1, ⟨o, t2⟩, h2, a, h3, ⟨o', t3⟩, h4, b, h5, ⟨ct, t4⟩, h6, ⟨ct', t5⟩, h7, h8, h9⟩ := h
  cases o with
  | none => simp at h3
  | some a' =>
    cases o' with
    | none => simp at h5
    | some b' =>
      obtain rfl := Res.ok.inj h3
      obtain rfl := Res.ok.inj h5
      exact ⟨gk, a', b', ct, ct', t1, t2, t3, t4, t5, h1, h2, h4, h6, h7, h8, h9⟩

/-- Two authorities in the other order, with a third one between them whose attribute the policy does not mention, and the
first one given again. -/
example : ∃ (p : Pol) (a b c : PublicKey Fr Fr), Denotes (chars% "\"A\" and \"b\"") .human p ∧ (∀ n ∈ p.names, '_' ∉ n) ∧
    ((published [a, b]).map (·.name)).Nodup ∧ (∀ x ∈ published [c], ∀ n ∈ p.names, x.name ≠ asciiCase.upper n) ∧
    (published [b, c, a]).Perm (published [a, b] ++ published [c]) ∧
    ∀ gk pt, encrypt asciiCase toyEnv gk [b, c, a] (chars% "\"A\" and \"b\"") .human pt =
      encrypt asciiCase toyEnv gk [a, b] (chars% "\"A\" and \"b\"") .human pt ∧
      encrypt asciiCase toyEnv gk ([a, b] ++ [a]) (chars% "\"A\" and \"b\"") .human pt =
      encrypt asciiCase toyEnv gk [a, b] (chars% "\"A\" and \"b\"") .human pt := by
  have hp : Denotes (chars% "\"A\" and \"b\"") .human (.gate .and [.leaf ['A'] 2, .leaf ['b'] 10]) := rfl
  have hu : ∀ n ∈ (Pol.gate .and [.leaf ['A'] 2, .leaf ['b'] 10]).names, '_' ∉ n := by simp [Pol.names]
  have hn : ((published [(⟨[⟨['A'], 1, 2⟩]⟩ : PublicKey Fr Fr), ⟨[⟨['B'], 3, 4⟩]⟩]).map (·.name)).Nodup := by simp [published]
  have hx : ∀ x ∈ published [(⟨[⟨['C'], 5, 6⟩]⟩ : PublicKey Fr Fr)],
      ∀ n ∈ (Pol.gate .and [.leaf ['A'] 2, .leaf ['b'] 10]).names, x.name ≠ asciiCase.upper n := by
    simp [published, Pol.names]
    decide
  have hl : (published [(⟨[⟨['B'], 3, 4⟩]⟩ : PublicKey Fr Fr), ⟨[⟨['C'], 5, 6⟩]⟩, ⟨[⟨['A'], 1, 2⟩]⟩]).Perm
      (published [⟨[⟨['A'], 1, 2⟩]⟩, ⟨[⟨['B'], 3, 4⟩]⟩] ++ published [⟨[⟨['C'], 5, 6⟩]⟩]) :=
    List.perm_append_singleton (⟨['A'], 1, 2⟩ : PubAttr Fr Fr) [⟨['B'], 3, 4⟩, ⟨['C'], 5, 6⟩]
  refine ⟨_, _, _, _, hp, hu, hn, hx, hl, fun gk pt => ⟨C100_aw11_partial asciiCase toyEnv gk hp hu _ _ _ hn hx hl pt,
    C100_aw11_twice asciiCase toyEnv gk hp _ _ ?_ pt⟩⟩
  simp [published]

end Aw11

/-- **C100, texts that are not accepted.** A text that denotes no policy makes the encryption of all three schemes fail in the
same way (all with an error or all with an abort) whatever public keys are given. -/
theorem C100_refused (cm : CaseMap) (env : Env F G1 G2 Gt) {text : Str} {lang : PolicyLanguage}
    (h : ¬ ∃ p, Denotes text lang p) (pt : Bytes) :
    (∀ s, (∀ gk pks, Aw11.encrypt cm env gk pks text lang pt s = .err) ∧
      (∀ pk pks, Bdabe.encrypt env pk pks text lang pt s = .err) ∧
      ∀ pk pks, Mke08.encrypt env pk pks text lang pt s = .err) ∨
    ∀ s, (∀ gk pks, Aw11.encrypt cm env gk pks text lang pt s = .panic) ∧
      (∀ pk pks, Bdabe.encrypt env pk pks text lang pt s = .panic) ∧
      ∀ pk pks, Mke08.encrypt env pk pks text lang pt s = .panic := by
  cases e : parse text lang with
  | ok v =>
    obtain ⟨p, ⟨hp, -⟩, -⟩ := C01_parse_well_formed text lang v e
    exact absurd ⟨p, hp⟩ h
  | err => exact .inl fun s => ⟨fun _ _ => by simp [Aw11.encrypt, RM.bind_apply, e],
      fun _ _ => by simp [Bdabe.encrypt, RM.bind_apply, e], fun _ _ => by simp [Mke08.encrypt, RM.bind_apply, e]⟩
  | panic => exact .inr fun s => ⟨fun _ _ => by simp [Aw11.encrypt, RM.bind_apply, e],
      fun _ _ => by simp [Bdabe.encrypt, RM.bind_apply, e], fun _ _ => by simp [Mke08.encrypt, RM.bind_apply, e]⟩

/-- A text with two different operators and no brackets. -/
example : ¬ ∃ p, Denotes (chars% "\"A\" and \"B\" or \"C\"") .human p := by
  rintro ⟨p, hp⟩
  have h : parse (chars% "\"A\" and \"B\" or \"C\"") .human = .err := rfl
  rw [show parse _ _ = _ from hp] at h
  simp at h

end Rabe
