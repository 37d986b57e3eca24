import Verif.Props.DishonestAw11
import Verif.Props.Authorities
import Verif.Props.AuthoritiesBdabe
import Verif.Props.Mke08
import Verif.Props.Bdabe

/-!
# C92, MKE08 and BDABE: what dishonest authorities open

In BDABE every authority opens everything. In MKE08 an authority that publishes a key depending on the keys of the others
opens conjunctions with them; authorities whose keys are made as the code makes them open only what their users have the
keys of all other authorities for.
-/

set_option linter.unusedSectionVars false

namespace Rabe

open MvPolynomial

variable {F G1 G2 Gt : Type} [Field F] [DecidableEq F] [AddCommGroup G1] [Module F G1]
  [AddCommGroup G2] [Module F G2] [AddCommGroup Gt] [Module F Gt]

theorem filter_name {pks : List (PubAttr G1 G2 Gt)} (hn : (pks.map (·.attr)).Nodup) {x} (hx : x ∈ pks) :
    (pks.filter fun k => k.attr = x.attr) = [x] := by
  induction pks with
  | nil => simp at hx
  | cons y l ih =>
    rw [List.map_cons, List.nodup_cons] at hn
    rcases List.mem_cons.1 hx with rfl | hx
    · rw [List.filter_cons_of_pos (by simp), List.filter_eq_nil_iff.2]
      intro k hk hkx
      exact hn.1 (List.mem_map.2 ⟨k, hk, by simpa using hkx⟩)
    · rw [List.filter_cons_of_neg, ih hn.2 hx]
      intro h
      exact hn.1 (List.mem_map.2 ⟨x, hx, (by simpa using h : y.attr = x.attr).symm⟩)

namespace Bdabe

/-- A user key made from the key of an authority alone: the user's number is zero, so the attribute keys are neutral. -/
def forgeUser (a : SecretAuthorityKey F G1 G2) (names : List Str) : UserKey G1 G2 :=
  { sk := { u1 := a.a1, u2 := a.a2 }, pk := { u := [], u1 := 0, u2 := 0 },
    skA := names.map fun n => { attr := n, au1 := 0, au2 := 0 } }

/-- **C92 is violated in BDABE.** One dishonest authority opens every ciphertext, also if none of its attributes is in the
policy: from its own key it makes a user key for all attributes, those of the other authorities included, and `decrypt`
returns the plaintext with it. -/
theorem C92_violated_bdabe (env : Env F G1 G2 Gt) (one : G1 × G2)
    (t₁ t₁' : Tape F G1 G2 Gt) (pk : PublicKey G1 G2 Gt) (msk : MasterKey F)
    (hsetup : setup env t₁ = .ok ((pk, msk), t₁'))
    (bad : SecretAuthorityKey F G1 G2) (hbad : Genuine pk msk bad)
    (auths : List (SecretAuthorityKey F G1 G2))
    (hinj : ∀ a ∈ auths, ∀ b ∈ auths, a.name = b.name → a = b)
    (pks : List (PublicAttributeKey G1 G2 Gt)) (hpks : Requested env pk auths pks)
    (text : Str) (lang : PolicyLanguage) (p : Pol) (hp : Denotes text lang p)
    (hk : ∀ n ∈ p.names, ∃ k ∈ pks, k.attr = n) (he : p.sat [] = false)
    (plaintext : Bytes) (t₂ t₂' : Tape F G1 G2 Gt) (ct : Ciphertext G1 G2 Gt)
    (henc : encrypt env pk pks text lang plaintext t₂ = .ok (ct, t₂'))
    (names : List Str) (hsat : p.sat names = true) :
    decrypt env one (forgeUser bad names) ct = .ok plaintext := by
  obtain ⟨terms, msg, hterms, hpol, hd, _, hj⟩ := encrypt_ok hp henc
  have hc := encrypt_ctOk (setup_ok hsetup) hinj hpks hterms hp hj
  have hattr : (forgeUser bad names).skA.map (·.attr) = names := by
    simp [forgeUser, Function.comp_def]
  have hne : (forgeUser bad names).skA ≠ [] := by
    intro h
    rw [h, List.map_nil] at hattr
    rw [← hattr, he] at hsat
    simp at hsat
  have hok : UserOk pk msk.y (expo env auths) (forgeUser bad names) := by
    obtain ⟨s, s', hg⟩ := hbad
    simp only [authgen, RM.bind_apply, RM.genFr, RM.pure_apply, Res.ok.injEq, Prod.mk.injEq] at hg
    refine ⟨s.fr 0, msk.y - s.fr 0, 0, by ring, ?_, ?_, by simp [forgeUser], by simp [forgeUser], ?_⟩
    · simp only [forgeUser, zero_smul, add_zero]; rw [← hg.1]
    · simp only [forgeUser, zero_smul, add_zero]; rw [← hg.1]
    · simp [forgeUser]
  have hcov : Covers ((forgeUser bad names).skA.map (·.attr)) terms := by
    rw [hattr]
    refine C22_dnf_complete_partial text lang p hp _ terms hterms ?_ he _ hsat
    intro n hn
    obtain ⟨k, hk', rfl⟩ := hk n hn
    exact ⟨k.view, List.mem_map.2 ⟨k, hk', rfl⟩, rfl⟩
  have hpol' : parse ct.policy.1 ct.policy.2 = .ok p.toValue := by rw [hpol]; exact hp
  rw [(decrypt_eq hc hok one hpol' hne (by rw [hattr]; exact hsat)).1 ((covers_j hj _).2 hcov), hd]

/-- **C92 is violated in BDABE**, concretely: the authority `C` opens a ciphertext for an attribute of `A` and one of `B`. -/
theorem C92_violated_bdabe_case : ∃ (p : Pol) (pk : PublicKey Fr Fr Fr) (msk : MasterKey Fr)
    (a b c : SecretAuthorityKey Fr Fr Fr) (pks : List (PublicAttributeKey Fr Fr Fr)) (ct : Ciphertext Fr Fr Fr)
    (t₁ t₂ : Tape Fr Fr Fr Fr),
    Denotes (chars% "\"A::a\" and \"B::b\"") .human p ∧ setup toyEnv toyTape = .ok ((pk, msk), t₁) ∧
    (Genuine pk msk a ∧ a.name = ['A']) ∧ (Genuine pk msk b ∧ b.name = ['B']) ∧ (Genuine pk msk c ∧ c.name = ['C']) ∧
    (Requested toyEnv pk [a, b] pks ∧ pks.map (·.attr) = [chars% "A::a", chars% "B::b"]) ∧
    encrypt toyEnv pk pks (chars% "\"A::a\" and \"B::b\"") .human [7] toyTape = .ok (ct, t₂) ∧
    decrypt toyEnv (1, 1) (forgeUser c [chars% "A::a", chars% "B::b"]) ct = .ok [7] := by
  have h : toyRun ['A'] ['B'] [chars% "A::a"] [chars% "B::b"] [] []
      (chars% "\"A::a\" and \"B::b\"") .human ((chars% "\"A::a\" and \"B::b\""), .human) [7] = .ok .err := by decide +kernel
  obtain ⟨pk, msk, a, b, sk, pks, ct, t1, t2, h1, h2, h3, h4, h5, h6, h7⟩ := toyRun_ok h
  obtain ⟨c, t', hc, hg, hn⟩ := (C44_bdabe_defined toyEnv).2.1 pk msk ['C'] toyTape
  refine ⟨.gate .and [.leaf (chars% "A::a") 2, .leaf (chars% "B::b") 13], pk, msk, a, b, c, pks, ct, t1, t2,
    case_denotes, h1, h2, h3, ⟨hg, hn⟩, h4, h6, ?_⟩
  refine C92_violated_bdabe toyEnv (1, 1) _ _ pk msk h1 c hg [a, b] ?_ pks h4.1 _ _ _ case_denotes ?_ (by decide) _ _ _ ct h6 _
    (by decide)
  · have hab : a.name ≠ b.name := by rw [h2.2, h3.2]; decide
    simp only [List.mem_cons, List.not_mem_nil, or_false]
    rintro x (rfl | rfl) y (rfl | rfl) hxy
    · rfl
    · exact absurd hxy hab
    · exact absurd hxy.symm hab
    · rfl
  · intro n hn
    have : n ∈ pks.map (·.attr) := by
      rw [h4.2]
      simpa [Pol.names] using hn
    obtain ⟨k, hk, rfl⟩ := List.mem_map.1 this
    exact ⟨k, hk, rfl⟩

variable {a m n : ℕ}

/-- The random choices with the secrets `b` for the dishonest authorities. -/
def known {P : Type} (bad : Finset (Fin a)) (b : Fin a → P) (x : Choice a m n → P) : Choice a m n → P
  | .auth i => if i ∈ bad then b i else x (.auth i)
  | c => x c

open Classical in
/-- **C92, BDABE, partial: the numbers for the attributes.** Of the authorities in `bad` only the secrets `b` from which the
attribute keys are made are known, not the parts of the master secret. Suppose that in every conjunction of the policy each
member of the coalition has asked one of the other authorities for nothing. Then a computation that may depend on `b` finds
the session element for at most the fraction `4 / q` of the random choices. (Full claim: with the whole keys of dishonest
authorities; false, see `C92_violated_bdabe`.) -/
theorem C92_dishonest_partial [Fintype F] (env : Env F G1 G2 Gt) (t : Tape F G1 G2 Gt)
    (hpair : env.pair (t.g1 0) (t.g2 0) ≠ 0) (names : Fin a → Str) (keys : List (Fin a × Str))
    (members : Fin m → Member a) (job : CpJob F G1 G2 Gt) (others : List (CpJob F G1 G2 Gt))
    (bad : Finset (Fin a)) (b : Fin a → F) (k : Formula F)
    (hexp : ∀ c ∈ conjunctions env names keys job.text job.lang, ∃ i, i ∉ bad ∧ c i ≠ 0)
    (hmiss : ∀ c ∈ conjunctions env names keys job.text job.lang, ∀ v, ∃ i, i ∉ bad ∧ c i ≠ 0 ∧
      ∀ r ∈ (members v).requests, r.1 = i → weight env names r = 0) :
    (Finset.univ.filter fun x => Coalition (n := (conjunctions env names keys job.text job.lang).length) env k t names keys
      members job others (known bad b x)).card * Fintype.card F ≤
    4 * Fintype.card (Choice a m (conjunctions env names keys job.text job.lang).length → F) := by
  obtain ⟨φ, hφ⟩ := exists_functional (F := F) _ hpair
  have hno : ∀ (v : Fin m) (i : Fin a) (c : F), (∀ r ∈ (members v).requests, r.1 = i → weight env names r = 0) →
      Sym.att v i c ∈ symbols (n := (terms env names keys job).length) env names keys members others → c = 0 := by
    intro v i c hr hmem
    simp only [symbols, keySyms, memberSyms, List.mem_append, List.mem_cons, List.mem_map, List.mem_flatMap, List.not_mem_nil,
      reduceCtorEq, and_false, exists_false, or_false, false_or, or_self, Sym.att.injEq] at hmem
    obtain ⟨_, _, r, hr', h1, h2, h3⟩ := hmem
    subst h1
    rw [← h3, hr r hr' h2]
  have hX : ∀ c : Choice a m (terms env names keys job).length, (X c : MvPolynomial _ F).totalDegree ≤ 1 :=
    fun c => (totalDegree_X c).le
  have hmap : ∀ x : Choice a m (terms env names keys job).length → F,
      (reading (P := MvPolynomial _ F) members (known bad (fun i => C (b i)) X)).map (aeval x) = reading members (known bad b x) := by
    intro x
    simp only [reading, Reading.map, known, map_sub, map_zero, map_one, aeval_X, Reading.mk.injEq, and_true, true_and]
    funext i
    split_ifs <;> simp
  refine lacking_known_bound k (symbols env names keys members others) (symbols env names keys members others)
    (tsymbols env φ names keys others) (terms env names keys job).get bad b (fun j => hexp _ (List.get_mem _ j)) ?_
    (reading (P := MvPolynomial _ F) members (known bad (fun i => C (b i)) X)) ?_ ?_ ?_ ?_ ?_ ?_ ?_ ?_ ?_ ?_ ?_ ?_ 0 ?_ _ ?_
  · intro j v
    obtain ⟨i, hb, hi, hr⟩ := hmiss _ (List.get_mem _ j) v
    exact ⟨i, hb, hi, fun c hc => hno v i c hr (hc.elim id id)⟩
  · exact fun v => hX (.share (members v).home)
  · exact fun v => (totalDegree_sub _ _).trans (max_le (hX .y) (hX (.share (members v).home)))
  · exact hX .p1
  · exact hX .p2
  · exact fun v => hX (.user v)
  · intro i
    simp only [reading, known]
    split_ifs
    · rw [totalDegree_C]; exact Nat.zero_le _
    · exact hX (.auth i)
  · exact fun j => hX (.enc j)
  · exact (totalDegree_zero (R := F)).le.trans (by norm_num)
  · exact hX .y
  · exact (totalDegree_one (R := F)).le.trans (by norm_num)
  · exact (hX .ses).trans (by norm_num)
  · exact (hX .ses).trans (by norm_num)
  · intro y p z μ ρ r hρ
    refine ⟨fun | .y => y | .p1 => 0 | .p2 => p | .share _ => 0 | .auth i => ρ i | .user v => μ v | .enc j => r j | .ses => z, ?_⟩
    rw [hmap]
    simp only [reading, known, sub_zero, zero_add, Reading.mk.injEq, and_true, true_and]
    funext i
    split_ifs with hi
    · exact (hρ i hi).symm
    · rfl
  · intro x hx
    rw [hmap]
    obtain ⟨V, hV, hk⟩ := (Finset.mem_filter.1 hx).2
    obtain ⟨h1, h2, h3, _⟩ := run_view hV
    have := congrArg φ hk
    rw [session, map_smul, hφ, smul_eq_mul, mul_one] at this
    exact (eval_scalar env k (t.g1 0) (t.g2 0) φ hφ _ _ _ _ (by rw [h1, List.map_map]; rfl) (by rw [h2, List.map_map]; rfl)
      (h3 φ hφ)).symm.trans this

/-- Of authority `A` the number for the attributes is known, and the user has its key: the conditions hold for a ciphertext
that needs an attribute of `B` too. -/
example : toyEnv.pair (toyTape.g1 0) (toyTape.g2 0) ≠ 0 ∧
    (∀ c ∈ conjunctions toyEnv caseNames caseKeys caseJob.text caseJob.lang, ∃ i, i ∉ ({0} : Finset (Fin 2)) ∧ c i ≠ 0) ∧
    (∀ c ∈ conjunctions toyEnv caseNames caseKeys caseJob.text caseJob.lang, ∀ v, ∃ i, i ∉ ({0} : Finset (Fin 2)) ∧ c i ≠ 0 ∧
      ∀ r ∈ ((fun _ => ⟨0, ['u'], [(0, chars% "A::a")]⟩ : Fin 1 → Member 2) v).requests, r.1 = i →
        weight toyEnv caseNames r = 0) ∧
    known (m := 1) (n := 1) ({0} : Finset (Fin 2)) (fun _ => (5 : Fr)) (fun _ => 3) (.auth 0) = 5 :=
  ⟨by decide +kernel, fun c hc => ⟨1, by decide, (case_conjunctions c hc).2⟩,
    fun c hc v => ⟨1, by decide, (case_conjunctions c hc).2, by simp⟩, rfl⟩

end Bdabe

namespace Mke08

/-- The key an authority publishes for the attribute `n`, computed from the public key and the keys of the other
attributes alone: the sum of all of them is then known. -/
def rogueKey (pk : PublicKey G1 G2 Gt) (n : Str) (others : List (PublicAttributeKey G1 G2 Gt)) : PublicAttributeKey G1 G2 Gt :=
  { attr := n, g1 := pk.g1 - (others.map (·.g1)).sum, g2 := pk.g2 - (others.map (·.g2)).sum,
    gt1 := pk.eGgY1 - (others.map (·.gt1)).sum, gt2 := pk.eGgY2 - (others.map (·.gt2)).sum }

/-- The key of a user with attribute keys for the conjunction, made from the user's own key alone. -/
def forgeUser (sk : UserKey G1 G2) (n : Str) (ns : List Str) : UserKey G1 G2 :=
  { sk with skA := { attr := n, g1 := sk.pk.g1, g2 := sk.pk.g2 } :: ns.map fun n => { attr := n, g1 := 0, g2 := 0 } }

/-- **C92 is violated in MKE08: keys that depend on other keys.** If an authority publishes such a key, every user opens
ciphertexts for the conjunction without a key from any of the other authorities, whatever their keys are. -/
theorem C92_violated_mke08 (env : Env F G1 G2 Gt) (one : G1 × G2)
    (t₁ t₁' : Tape F G1 G2 Gt) (pk : PublicKey G1 G2 Gt) (msk : MasterKey G1 G2)
    (hsetup : setup env t₁ = .ok ((pk, msk), t₁'))
    (user : Str) (t₃ t₃' : Tape F G1 G2 Gt) (sk : UserKey G1 G2) (hsk : keygen pk msk user t₃ = .ok (sk, t₃'))
    (n : Str) (others : List (PublicAttributeKey G1 G2 Gt)) (hnd : (n :: others.map (·.attr)).Nodup)
    (text : Str) (lang : PolicyLanguage) (cs : List (Str × ℕ)) (hcs : cs.map (·.1) = n :: others.map (·.attr))
    (hp : Denotes text lang (.gate .and (cs.map fun c => .leaf c.1 c.2)))
    (plaintext : Bytes) (t₂ t₂' : Tape F G1 G2 Gt) (ct : Ciphertext G1 G2 Gt)
    (henc : encrypt env pk (rogueKey pk n others :: others) text lang plaintext t₂ = .ok (ct, t₂')) :
    decrypt env one (forgeUser sk n (others.map (·.attr))) ct = .ok plaintext := by
  obtain ⟨terms, msg1, msg2, hterms, hpol, hd, hj⟩ := encrypt_ok hp henc
  obtain ⟨y1, y2, hs⟩ := setup_ok hsetup
  set pks := (rogueKey pk n others :: others).map PublicAttributeKey.view with hpks
  have hattrs : pks.map (·.attr) = n :: others.map (·.attr) := by
    simp [hpks, rogueKey, PublicAttributeKey.view, Function.comp_def]
  have hnames : (Pol.gate .and (cs.map fun c => .leaf c.1 c.2)).names = n :: others.map (·.attr) := by
    rw [← hcs]
    simp [Pol.names, List.flatMap_map]
  have hkeys : keysOf pks (.gate .and (cs.map fun c => .leaf c.1 c.2)) = pks := by
    rw [keysOf, hnames, ← hattrs]
    have hnd' : (pks.map (·.attr)).Nodup := hattrs ▸ hnd
    clear_value pks
    clear hterms hpks hattrs
    rw [List.flatMap_map]
    have key : ∀ l : List (PubAttr G1 G2 Gt), (∀ x ∈ l, x ∈ pks) → (l.flatMap fun x => pks.filter fun k => k.attr = x.attr) = l := by
      intro l
      induction l with
      | nil => intro _; rfl
      | cons x l ih =>
        intro h
        rw [List.flatMap_cons, ih fun y hy => h y (by simp [hy])]
        have : (pks.filter fun k => k.attr = x.attr) = [x] := filter_name hnd' (h x (by simp))
        rw [this]; rfl
    exact key pks fun x hx => hx
  have hterm : terms = [DnfTerm.ofKeys pks] := by
    have h := (C19_dnf_terms text lang _ hp pks).1 (by
      intro c hc
      obtain ⟨x, _, rfl⟩ := List.mem_map.1 hc
      exact ⟨_, _, rfl⟩)
    rw [h] at hterms
    have := Res.ok.inj hterms
    rw [← this]
    simp only [Pol.disjuncts, List.map_cons, List.map_nil, hkeys]
    simp [spread, pieces, hpks, sortTerms, insertTerm]
  have hc : CtOk env pk y1 y2 (fun a => if a = n then 1 else 0) msg1 msg2 ct.e := by
    intro c hc
    obtain ⟨x, hx, r, rfl⟩ := Forall₂.mem_right hj c hc
    rw [hterm, List.mem_singleton] at hx
    subst hx
    have hsum : ((n :: others.map (·.attr)).map fun a => if a = n then (1 : F) else 0).sum = 1 := by
      rw [List.map_cons, List.sum_cons, if_pos rfl, List.sum_eq_zero, add_zero]
      intro y hy
      obtain ⟨a, ha, rfl⟩ := List.mem_map.1 hy
      have : a ≠ n := fun h => (List.nodup_cons.1 hnd).1 (h ▸ ha)
      exact if_neg this
    simp only [DnfTerm.ofKeys, hattrs, hsum, mul_one]
    refine ⟨by simp, r, ?_, ?_, rfl, rfl, ?_, ?_⟩ <;>
      simp [hpks, rogueKey, PublicAttributeKey.view, Function.comp_def, hs.e1, hs.e2, smul_smul]
  have hok : UserOk pk y1 y2 (fun a => if a = n then 1 else 0) (forgeUser sk n (others.map (·.attr))) := by
    simp only [keygen, RM.bind_apply, RM.genFr, RM.pure_apply, Res.ok.injEq, Prod.mk.injEq] at hsk
    obtain ⟨rfl, _⟩ := hsk
    refine ⟨t₃.fr 0, ?_, ?_, rfl, rfl, ?_⟩
    · simp [forgeUser, hs.m1]
    · simp [forgeUser, hs.m2]
    · intro k hk
      rcases List.mem_cons.1 hk with rfl | hk
      · simp
      · obtain ⟨a, ha, rfl⟩ := List.mem_map.1 hk
        have : a ≠ n := fun h => (List.nodup_cons.1 hnd).1 (h ▸ ha)
        simp [this]
  have hattr : (forgeUser sk n (others.map (·.attr))).skA.map (·.attr) = n :: others.map (·.attr) := by
    simp [forgeUser, Function.comp_def]
  have hpol' : parse ct.policy.1 ct.policy.2 = .ok (Pol.gate .and (cs.map fun c => .leaf c.1 c.2)).toValue := by
    rw [hpol]; exact hp
  rw [(decrypt_eq hc hok one hpol' (by simp [forgeUser]) ?_).1 ?_, hd]
  · rw [hattr, Pol.sat_and, List.all_map, List.all_eq_true]
    intro c hc
    simp only [Function.comp_apply, Pol.sat_leaf, decide_eq_true_eq]
    rw [← hcs]
    exact List.mem_map_of_mem hc
  · rw [covers_e hj, hattr, hterm]
    exact ⟨_, List.mem_singleton.2 rfl, fun a ha => by rwa [DnfTerm.ofKeys, hattrs] at ha⟩

/-- **C92 is violated in MKE08**, concretely: the user `u` has no attribute key at all, and opens a ciphertext for an attribute
of the dishonest authority `A` and one of the honest authority `B`. -/
theorem C92_violated_mke08_case : ∃ (pk : PublicKey Fr Fr Fr) (msk : MasterKey Fr Fr) (b : SecretAuthorityKey Fr)
    (k : PublicAttributeKey Fr Fr Fr) (sk : UserKey Fr Fr) (ct : Ciphertext Fr Fr Fr) (t₁ t₂ t₃ t₄ : Tape Fr Fr Fr Fr),
    setup toyEnv toyTape = .ok ((pk, msk), t₁) ∧ authgen ['B'] toyTape = .ok (b, t₂) ∧
    requestAuthorityPk toyEnv pk (chars% "B::b") b = .ok k ∧ keygen pk msk ['u'] toyTape = .ok (sk, t₃) ∧ sk.skA = [] ∧
    encrypt toyEnv pk [rogueKey pk (chars% "A::a") [k], k] (chars% "\"A::a\" and \"B::b\"") .human [7] toyTape = .ok (ct, t₄) ∧
    decrypt toyEnv (1, 1) (forgeUser sk (chars% "A::a") [chars% "B::b"]) ct = .ok [7] := by
  have h : (setup toyEnv toyTape).check (fun x =>
      (authgen (F := Fr) (G1 := Fr) (G2 := Fr) (Gt := Fr) ['B'] toyTape).check fun b =>
      (requestAuthorityPk toyEnv x.1.1 (chars% "B::b") b.1).check fun k =>
      (keygen x.1.1 x.1.2 ['u'] toyTape).check fun u =>
      (encrypt toyEnv x.1.1 [rogueKey x.1.1 (chars% "A::a") [k], k] (chars% "\"A::a\" and \"B::b\"") .human [7]
        toyTape).check fun y => decide (k.attr = chars% "B::b") && u.1.skA.isEmpty) = true := by
    decide +kernel
  simp only [Res.check_iff, Bool.and_eq_true, decide_eq_true_eq, List.isEmpty_iff] at h
  obtain ⟨⟨⟨pk, msk⟩, t'⟩, h1, ⟨b, wb⟩, hb, k, hk, ⟨u, wu⟩, hu, ⟨ct, w⟩, h2, hkb, hsk⟩ := h
  refine ⟨pk, msk, b, k, u, ct, _, _, _, _, h1, hb, hk, hu, hsk, h2, ?_⟩
  have := C92_violated_mke08 toyEnv (1, 1) _ _ pk msk h1 ['u'] _ _ u hu (chars% "A::a") [k] (by simp [hkb]) _ .human
    [(chars% "A::a", 2), (chars% "B::b", 13)] (by simp [hkb]) case_denotes [7] _ _ ct h2
  simpa [hkb] using this

variable {a m n : ℕ}

/-- The random choices with the secrets `b` for the dishonest authorities. -/
def known {P : Type} (bad : Finset (Fin a)) (b : Fin a → P) (x : Choice a m n → P) : Choice a m n → P
  | .auth i => if i ∈ bad then b i else x (.auth i)
  | c => x c

open Classical in
/-- **C92, MKE08, partial: keys made as the code makes them.** The authorities in `bad` are dishonest and have the secrets `b`;
the computation may depend on these secrets. Suppose that in every conjunction of the policy each member of the coalition
has asked one of the honest authorities for nothing. Then the computation finds the element the plaintext is encrypted under
for at most the fraction `4 / q` of the random choices. (Full claim: for dishonest authorities that publish any keys; false,
see `C92_violated_mke08`.) -/
theorem C92_dishonest_partial [Fintype F] (env : Env F G1 G2 Gt) (t : Tape F G1 G2 Gt)
    (hpair : env.pair (t.g1 0) (t.g2 0) ≠ 0) (names : Fin a → Str) (keys : List (Fin a × Str))
    (members : Fin m → Str × List (Fin a × Str)) (job : CpJob F G1 G2 Gt) (others : List (CpJob F G1 G2 Gt))
    (bad : Finset (Fin a)) (b : Fin a → F) (k : Formula F)
    (hexp : ∀ c ∈ conjunctions env names keys job.text job.lang, ∃ i, i ∉ bad ∧ c i ≠ 0)
    (hmiss : ∀ c ∈ conjunctions env names keys job.text job.lang, ∀ v, ∃ i, i ∉ bad ∧ c i ≠ 0 ∧
      ∀ r ∈ (members v).2, r.1 = i → weight env names r = 0) :
    (Finset.univ.filter fun x => Coalition (n := (conjunctions env names keys job.text job.lang).length) env k t names keys
      members job others (known bad b x)).card * Fintype.card F ≤
    4 * Fintype.card (Choice a m (conjunctions env names keys job.text job.lang).length → F) := by
  obtain ⟨φ, hφ⟩ := exists_functional (F := F) _ hpair
  have hno : ∀ (v : Fin m) (i : Fin a) (c : F), (∀ r ∈ (members v).2, r.1 = i → weight env names r = 0) →
      Sym.att v i c ∈ symbols (n := (terms env names keys job).length) env names keys members others → c = 0 := by
    intro v i c hr hmem
    simp only [symbols, keySyms, memberSyms, List.mem_append, List.mem_cons, List.mem_map, List.mem_flatMap, List.not_mem_nil,
      reduceCtorEq, and_false, exists_false, or_false, false_or, or_self, Sym.att.injEq] at hmem
    obtain ⟨_, _, r, hr', h1, h2, h3⟩ := hmem
    subst h1
    rw [← h3, hr r hr' h2]
  have hX : ∀ c : Choice a m (terms env names keys job).length, (X c : MvPolynomial _ F).totalDegree ≤ 1 :=
    fun c => (totalDegree_X c).le
  have hmap : ∀ x : Choice a m (terms env names keys job).length → F,
      (reading (P := MvPolynomial _ F) (known bad (fun i => C (b i)) X)).map (aeval x) = reading (known bad b x) := by
    intro x
    simp only [reading, Reading.map, known, map_mul, map_add, map_one, aeval_X, Reading.mk.injEq, and_true, true_and]
    funext i
    split_ifs <;> simp
  refine lacking_known_bound k (symbols env names keys members others) (symbols env names keys members others)
    (tsymbols env φ names keys others) (terms env names keys job).get bad b (fun j => hexp _ (List.get_mem _ j)) ?_
    (reading (P := MvPolynomial _ F) (known bad (fun i => C (b i)) X)) ?_ ?_ ?_ ?_ ?_ ?_ ?_ ?_ ?_ ?_ ?_ ?_ 1 ?_ _ ?_
  · intro j v
    obtain ⟨i, hb, hi, hr⟩ := hmiss _ (List.get_mem _ j) v
    exact ⟨i, hb, hi, fun c hc => hno v i c hr (hc.elim id id)⟩
  · exact fun _ => hX .y1
  · exact fun _ => hX .y2
  · exact hX .p1
  · exact hX .p2
  · exact fun v => hX (.user v)
  · intro i
    simp only [reading, known]
    split_ifs
    · rw [totalDegree_C]; exact Nat.zero_le _
    · exact hX (.auth i)
  · exact fun j => hX (.enc j)
  · exact hX .y1
  · exact hX .y2
  · exact (hX .ses).trans (by norm_num)
  · exact mul_degree (hX .fac) (hX .ses) (by norm_num)
  · exact mul_degree (add_degree (by simp) (hX .fac)) (hX .ses) (by norm_num)
  · intro y p z μ ρ r hρ
    refine ⟨fun | .y1 => 0 | .y2 => y | .p1 => 0 | .p2 => p | .auth i => ρ i | .user v => μ v | .enc j => r j | .ses => 1 | .fac => z, ?_⟩
    rw [hmap]
    simp only [reading, known, mul_one, Reading.mk.injEq, and_true, true_and]
    funext i
    split_ifs with hi
    · exact (hρ i hi).symm
    · rfl
  · intro x hx
    rw [hmap]
    obtain ⟨V, hV, hk⟩ := (Finset.mem_filter.1 hx).2
    obtain ⟨h1, h2, h3, _⟩ := run_view hV
    have := congrArg φ hk
    rw [session, map_smul, hφ, smul_eq_mul, mul_one] at this
    exact (eval_scalar env k (t.g1 0) (t.g2 0) φ hφ _ _ _ _ (by rw [h1, List.map_map]; rfl) (by rw [h2, List.map_map]; rfl)
      (h3 φ hφ)).symm.trans this

/-- Authority `A` is dishonest and the user has its key: the conditions of `C92_dishonest_partial` hold for a ciphertext that
needs an attribute of `B` too (runs exist: see the example of C86). -/
example : toyEnv.pair (toyTape.g1 0) (toyTape.g2 0) ≠ 0 ∧
    (∀ c ∈ conjunctions toyEnv caseNames caseKeys caseJob.text caseJob.lang, ∃ i, i ∉ ({0} : Finset (Fin 2)) ∧ c i ≠ 0) ∧
    (∀ c ∈ conjunctions toyEnv caseNames caseKeys caseJob.text caseJob.lang, ∀ v, ∃ i, i ∉ ({0} : Finset (Fin 2)) ∧ c i ≠ 0 ∧
      ∀ r ∈ ((fun _ => (['u'], [(0, chars% "A::a")]) : Fin 1 → Str × List (Fin 2 × Str)) v).2, r.1 = i →
        weight toyEnv caseNames r = 0) ∧
    known (m := 1) (n := 1) ({0} : Finset (Fin 2)) (fun _ => (5 : Fr)) (fun _ => 3) (.auth 0) = 5 ∧
    known (m := 1) (n := 1) ({0} : Finset (Fin 2)) (fun _ => (5 : Fr)) (fun _ => 3) (.auth 1) = 3 :=
  ⟨by decide +kernel, fun c hc => ⟨1, by decide, (case_conjunctions c hc).2⟩,
    fun c hc v => ⟨1, by decide, (case_conjunctions c hc).2, by simp⟩, rfl, rfl⟩

end Mke08
end Rabe
