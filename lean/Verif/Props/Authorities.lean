import Verif.Props.OutsiderDnf
import Verif.Props.DnfExact
import Verif.Proof.Authorities
import Mathlib.Tactic.DeriveFintype

/-!
# C86: what a coalition opens without one member who has keys from every authority of a conjunction
-/

set_option linter.unusedSectionVars false

namespace Rabe

open MvPolynomial

variable {F G1 G2 Gt : Type} [Field F] [DecidableEq F] [AddCommGroup G1] [Module F G1]
  [AddCommGroup G2] [Module F G2] [AddCommGroup Gt] [Module F Gt]

/-- The exponent of an attribute without the secret of its authority, `/repo/src/schemes/mke08/mod.rs:242-247`,
`/repo/src/schemes/bdabe/mod.rs:242-248`. -/
def weight (env : Env F G1 G2 Gt) {a : ℕ} (names : Fin a → Str) (r : Fin a × Str) : F :=
  env.hash r.2 * env.hash (names r.1)

/-- The requested public attribute keys as vectors with an entry for every authority. -/
def vectorKeys (env : Env F G1 G2 Gt) {a : ℕ} (names : Fin a → Str) (keys : List (Fin a × Str)) :
    List (PubAttr (Fin a → F) (Fin a → F) (Fin a → F)) :=
  keys.map fun r => ⟨r.2, Pi.single r.1 (weight env names r), Pi.single r.1 (weight env names r),
    Pi.single r.1 (weight env names r), Pi.single r.1 (weight env names r)⟩

/-- The terms of a policy, computed with these vectors. -/
def vectorTerms (env : Env F G1 G2 Gt) {a : ℕ} (names : Fin a → Str) (keys : List (Fin a × Str)) (text : Str)
    (lang : PolicyLanguage) : List (DnfTerm (Fin a → F) (Fin a → F) (Fin a → F)) :=
  match DnfPolicy.fromString text (vectorKeys env names keys) lang with
  | .ok T => T
  | _ => []

/-- The conjunctions of a policy as the code forms them: for every authority the sum of the weights of its attributes. -/
def conjunctions (env : Env F G1 G2 Gt) {a : ℕ} (names : Fin a → Str) (keys : List (Fin a × Str)) (text : Str)
    (lang : PolicyLanguage) : List (Fin a → F) := (vectorTerms env names keys text lang).map (·.gt1)

theorem conjunctions_diag (env : Env F G1 G2 Gt) {a : ℕ} (names : Fin a → Str) (keys : List (Fin a × Str)) (text : Str)
    (lang : PolicyLanguage) : ∀ T ∈ vectorTerms env names keys text lang, T.g1 = T.gt1 ∧ T.g2 = T.gt1 ∧ T.gt2 = T.gt1 := by
  unfold vectorTerms
  split
  · rename_i T hT
    refine fromString_closed (Q := fun T => T.g1 = T.gt1 ∧ T.g2 = T.gt1 ∧ T.gt2 = T.gt1) ⟨?_, ?_⟩ hT
    · intro k hk
      simp only [vectorKeys, List.mem_map] at hk
      obtain ⟨r, _, rfl⟩ := hk
      exact ⟨rfl, rfl, rfl⟩
    · intro k hk t ht
      simp only [vectorKeys, List.mem_map] at hk
      obtain ⟨r, _, rfl⟩ := hk
      obtain ⟨h1, h2, h3⟩ := ht
      simp [h1, h2, h3]
  · simp

/-- A combination of the authorities' secrets times an element. -/
def comboHom {M : Type} [AddCommGroup M] [Module F M] {a : ℕ} (ρ : Fin a → F) (x : M) : (Fin a → F) →+ M where
  toFun v := combo v ρ • x
  map_zero' := by simp [combo]
  map_add' v w := by simp [combo, add_mul, Finset.sum_add_distrib, add_smul]

theorem combo_single {a : ℕ} (ρ : Fin a → F) (i : Fin a) (c : F) : combo (Pi.single i c) ρ = c * ρ i := by
  simp [combo, Pi.single_apply]

theorem combo_smul {a : ℕ} (ρ : Fin a → F) (r : F) (v : Fin a → F) : combo (r • v) ρ = r * combo v ρ := by
  simp [combo, Finset.mul_sum, mul_assoc]

theorem all_one (l : List (View G1 G2 Gt)) : (View.all l).one = l.flatMap (·.one) := by
  induction l with
  | nil => rfl
  | cons v l ih => simp [View.all, View.join, ih]

theorem all_two (l : List (View G1 G2 Gt)) : (View.all l).two = l.flatMap (·.two) := by
  induction l with
  | nil => rfl
  | cons v l ih => simp [View.all, View.join, ih]

theorem all_tgt (l : List (View G1 G2 Gt)) : (View.all l).tgt = l.flatMap (·.tgt) := by
  induction l with
  | nil => rfl
  | cons v l ih => simp [View.all, View.join, ih]

/-- The public attribute keys as symbols. -/
def keySyms {a m n : ℕ} (env : Env F G1 G2 Gt) (names : Fin a → Str) (keys : List (Fin a × Str)) : List (Sym a m n F) :=
  keys.map fun r => .pub 0 (Pi.single r.1 (weight env names r)) 0

/-- The keys of the members as symbols. -/
def memberSyms {a m n : ℕ} (env : Env F G1 G2 Gt) (names : Fin a → Str) (requests : Fin m → List (Fin a × Str)) :
    List (Sym a m n F) :=
  (List.finRange m).flatMap fun v => .key v :: .upub v :: (requests v).map fun r => .att v r.1 (weight env names r)

theorem zipIdx_finRange {α β : Type} (l : List α) (f : α × ℕ → β) :
    l.zipIdx.map f = (List.finRange l.length).map fun j => f (l.get j, j) := by
  apply List.ext_getElem <;> simp

theorem flatMap_forall₂ {α β γ : Type} {R : α → β → Prop} {f : β → List γ} {g : α → List γ} (h : ∀ a b, R a b → f b = g a) :
    ∀ {l : List α} {l' : List β}, List.Forall₂ R l l' → l'.flatMap f = l.flatMap g
  | _, _, .nil => rfl
  | _, _, .cons h1 h2 => by rw [List.flatMap_cons, List.flatMap_cons, h _ _ h1, flatMap_forall₂ h h2]

theorem getElem?_block {α : Type} (A B C : List α) (p j : ℕ) (hp : p = A.length + j) (hj : j < B.length) :
    (A ++ (B ++ C))[p]? = B[j]? := by
  rw [List.getElem?_append_right (by omega), List.getElem?_append_left (by omega)]
  congr 1; omega

/-- The requests for the attributes of a tree, in the order of the leaves. -/
def requestsFor {a : ℕ} (keys : List (Fin a × Str)) (c : Pol) : List (Fin a × Str) :=
  c.names.flatMap fun n => keys.filter fun r => r.2 = n

/-- **C86.** What the conjunctions of the following theorems are: the pieces into which the code divides the disjuncts of the
policy (C19: the first disjunct stays whole, attributes of later ones may stand alone), and for every authority the sum of
the exponents of its attributes in the piece. -/
theorem C86_conjunctions (env : Env F G1 G2 Gt) {a : ℕ} (names : Fin a → Str) (keys : List (Fin a × Str)) (text : Str)
    (lang : PolicyLanguage) (p : Pol) (hp : Denotes text lang p) (c : Fin a → F) :
    c ∈ conjunctions env names keys text lang ↔ p.IsDnf ∧ ∃ q ∈ spread (p.disjuncts.map (requestsFor keys)) 0 0,
      c = fun i => ((q.filter fun r => r.1 = i).map fun r => env.hash r.2 * env.hash (names r.1)).sum := by
  let f : Fin a × Str → PubAttr (Fin a → F) (Fin a → F) (Fin a → F) := fun r => ⟨r.2, Pi.single r.1 (weight env names r),
    Pi.single r.1 (weight env names r), Pi.single r.1 (weight env names r), Pi.single r.1 (weight env names r)⟩
  have hq : ∀ q : List (Fin a × Str), (DnfTerm.ofKeys (q.map f)).gt1 =
      fun i => ((q.filter fun r => r.1 = i).map fun r => env.hash r.2 * env.hash (names r.1)).sum := by
    intro q
    funext i
    simp only [DnfTerm.ofKeys, List.map_map]
    induction q with
    | nil => rfl
    | cons r q ih =>
      simp only [List.map_cons, List.sum_cons, Pi.add_apply, ih, List.filter_cons, Function.comp_apply, f]
      by_cases h : r.1 = i
      · subst h; simp [weight]
      · simp [h, Pi.single_apply, Ne.symm h]
  have hk : keysOf (vectorKeys env names keys) = fun c => (requestsFor keys c).map f := by
    funext c
    simp only [keysOf, requestsFor, vectorKeys, List.map_flatMap]
    refine List.flatMap_congr fun n _ => ?_
    rw [List.filter_map]
    rfl
  obtain ⟨h1, h2⟩ := C19_dnf_terms text lang p hp (vectorKeys env names keys)
  have hf : DnfPolicy.fromString text (vectorKeys env names keys) lang = jsonToDnf p.toValue (vectorKeys env names keys) := by
    have hp' : parse text lang = .ok p.toValue := hp
    simp only [DnfPolicy.fromString, hp']
    rfl
  by_cases hd : p.IsDnf
  · simp only [conjunctions, vectorTerms, hf, h1 hd, List.mem_map, (sortTerms_perm _).mem_iff, hd, true_and]
    rw [hk, show (p.disjuncts.map fun c => (requestsFor keys c).map f) = (p.disjuncts.map (requestsFor keys)).map (List.map f) by
      rw [List.map_map]; rfl, spread_map]
    simp only [List.mem_map, exists_exists_and_eq_and]
    exact exists_congr fun q => and_congr_right fun _ => by rw [hq, eq_comm]
  · simp [conjunctions, vectorTerms, hf, h2 hd, hd]

/-! ## Cases -/

/-- Two authorities. -/
def caseNames : Fin 2 → Str := ![['A'], ['B']]

/-- The public attribute keys, one of each authority. -/
def caseKeys : List (Fin 2 × Str) := [(0, chars% "A::a"), (1, chars% "B::b")]

/-- A ciphertext that needs both. -/
def caseJob : CpJob Fr Fr Fr Fr := ⟨chars% "\"A::a\" and \"B::b\"", .human, [1, 2, 3], toyTape⟩

/-- A user with the key of one authority, and one with the key of the other: together they have both attributes. -/
def casePair : Fin 2 → Str × List (Fin 2 × Str) := ![(['u'], [(0, chars% "A::a")]), (['v'], [(1, chars% "B::b")])]

/-- A single user with both keys. -/
def caseBoth : Fin 1 → Str × List (Fin 2 × Str) := fun _ => (['u'], caseKeys)

theorem case_denotes : Denotes caseJob.text caseJob.lang
    (.gate .and [.leaf (chars% "A::a") 2, .leaf (chars% "B::b") 13]) := by with_unfolding_all rfl

/-- The only conjunction has an entry for each authority. -/
theorem case_conjunctions (c : Fin 2 → Fr) (hc : c ∈ conjunctions toyEnv caseNames caseKeys caseJob.text caseJob.lang) :
    c 0 ≠ 0 ∧ c 1 ≠ 0 := by
  obtain ⟨_, q, hq, rfl⟩ := (C86_conjunctions toyEnv caseNames caseKeys _ _ _ case_denotes c).1 hc
  have : q = caseKeys := by
    have h : spread ((Pol.gate .and [.leaf (chars% "A::a") 2, .leaf (chars% "B::b") 13]).disjuncts.map (requestsFor caseKeys)) 0 0 =
      [caseKeys] := by decide
    rw [h] at hq
    exact List.mem_singleton.1 hq
  subst this
  exact ⟨by decide +kernel, by decide +kernel⟩

theorem case_mem : ∃ c, c ∈ conjunctions toyEnv caseNames caseKeys caseJob.text caseJob.lang :=
  ⟨_, (C86_conjunctions toyEnv caseNames caseKeys _ _ _ case_denotes _).2
    ⟨by simp [Pol.IsDnf], caseKeys, by decide, rfl⟩⟩

namespace Mke08

/-- The random choices that are varied: the two master secrets, the two common points as multiples of the generators, the
secrets of the authorities and of the members, and of the encryption the numbers of the conjunctions, the point of `G1` as
a multiple of the generator and the factor between the two parts of the session element. -/
inductive Choice (a m n : ℕ)
  | y1 | y2 | p1 | p2 | auth (i : Fin a) | user (v : Fin m) | enc (j : Fin n) | ses | fac
  deriving DecidableEq, Fintype

variable {a m n : ℕ}

/-- The stream of `setup`. -/
def startTape (t : Tape F G1 G2 Gt) (x : Choice a m n → F) : Tape F G1 G2 Gt :=
  { t with
    g1 := fun i => if i = 1 then x .p1 • t.g1 0 else t.g1 i
    g2 := fun i => if i = 1 then x .p2 • t.g2 0 else t.g2 i
    fr := fun i => if i = 0 then x .y1 else x .y2 }

/-- The stream of `encrypt`. -/
def encTape (t o : Tape F G1 G2 Gt) (x : Choice a m n → F) : Tape F G1 G2 Gt :=
  { o with
    g1 := fun i => if i = 0 then x .ses • t.g1 0 else o.g1 i
    g2 := fun i => if i = 0 then t.g2 0 else o.g2 i
    fr := fun i => if i = 0 then x .fac else if h : i - 1 < n then x (.enc ⟨i - 1, h⟩) else o.fr i }

/-- The group elements of a user key, `/repo/src/schemes/mke08/mod.rs:76-99,126-130`. -/
def UserKey.seen (k : UserKey G1 G2) : View G1 G2 Gt :=
  ⟨k.sk.g1 :: k.pk.g1 :: k.skA.map (·.g1), k.sk.g2 :: k.pk.g2 :: k.skA.map (·.g2), []⟩

/-- `V` is what the coalition has in a run with the random choices `x`: the public key, the public attribute keys `keys`, all
keys of all members, the ciphertext made by `job` and the ciphertexts made by `others`. -/
def Run (env : Env F G1 G2 Gt) (t : Tape F G1 G2 Gt) (names : Fin a → Str) (keys : List (Fin a × Str))
    (members : Fin m → Str × List (Fin a × Str)) (job : CpJob F G1 G2 Gt) (others : List (CpJob F G1 G2 Gt))
    (x : Choice a m n → F) (V : View G1 G2 Gt) : Prop :=
  ∃ (pk : PublicKey G1 G2 Gt) (msk : MasterKey G1 G2) (t' : Tape F G1 G2 Gt) (as : Fin a → SecretAuthorityKey F)
    (aks : List (PublicAttributeKey G1 G2 Gt)) (us : Fin m → UserKey G1 G2) (ss : Fin m → List (SecretAttributeKey G1 G2))
    (ct : Ciphertext G1 G2 Gt) (u : Tape F G1 G2 Gt) (cts : List (Ciphertext G1 G2 Gt)),
    setup env (startTape t x) = .ok ((pk, msk), t') ∧
    (∀ i, ∃ u, authgen (names i) (t.setFr 0 (x (.auth i))) = .ok (as i, u)) ∧
    List.Forall₂ (fun r ak => requestAuthorityPk env pk r.2 (as r.1) = .ok ak) keys aks ∧
    (∀ v, ∃ u, keygen pk msk (members v).1 (t.setFr 0 (x (.user v))) = .ok (us v, u)) ∧
    (∀ v, List.Forall₂ (fun r s => requestAuthoritySk env (us v).pk r.2 (as r.1) = .ok s) (members v).2 (ss v)) ∧
    encrypt env pk aks job.text job.lang job.plain (encTape t job.tape x) = .ok (ct, u) ∧
    List.Forall₂ (fun o c => ∃ u, encrypt env pk aks o.text o.lang o.plain o.tape = .ok (c, u)) others cts ∧
    V = View.all (pk.seen :: View.all (aks.map PublicAttributeKey.seen) ::
      View.all ((List.finRange m).map fun v => UserKey.seen { us v with skA := ss v }) :: ct.seen :: cts.map Ciphertext.seen)

/-- The element the plaintext is encrypted under, `/repo/src/schemes/mke08/mod.rs:322-331`. -/
def session (env : Env F G1 G2 Gt) (t : Tape F G1 G2 Gt) (x : Choice a m n → F) : Gt :=
  ((1 + x .fac) * x .ses) • env.pair (t.g1 0) (t.g2 0)

/-- The computation `k` finds this element. -/
def Coalition (env : Env F G1 G2 Gt) (k : Formula F) (t : Tape F G1 G2 Gt) (names : Fin a → Str) (keys : List (Fin a × Str))
    (members : Fin m → Str × List (Fin a × Str)) (job : CpJob F G1 G2 Gt) (others : List (CpJob F G1 G2 Gt))
    (x : Choice a m n → F) : Prop :=
  ∃ V, Run env t names keys members job others x V ∧ k.eval env V = session env t x

/-- The exponents of the elements at given choices. -/
def reading {P : Type} [CommRing P] (x : Choice a m n → P) : Reading a m n P where
  A1 _ := x .y1
  A2 _ := x .y2
  p1 := x .p1
  p2 := x .p2
  μ v := x (.user v)
  ρ i := x (.auth i)
  r j := x (.enc j)
  y1 := x .y1
  y2 := x .y2
  s1 := x .ses
  s2 := x .fac * x .ses
  goal := (1 + x .fac) * x .ses

theorem reading_map (x : Choice a m n → F) :
    (reading (P := MvPolynomial (Choice a m n) F) X).map (aeval x) = reading x := by
  simp [reading, Reading.map]

theorem encrypt_terms {A1 A2 At : Type} [AddCommGroup A1] [AddCommGroup A2] [AddCommGroup At] {f1 : A1 →+ G1} {f2 : A2 →+ G2}
    {ft gt : At →+ Gt} {env : Env F G1 G2 Gt} {pk : PublicKey G1 G2 Gt} {aks : List (PublicAttributeKey G1 G2 Gt)}
    {ks : List (PubAttr A1 A2 At)} (haks : aks.map PublicAttributeKey.view = ks.map (PubAttr.map f1 f2 ft gt))
    {text : Str} {lang : PolicyLanguage} {m : Bytes} {t t' : Tape F G1 G2 Gt} {ct : Ciphertext G1 G2 Gt}
    (h : encrypt env pk aks text lang m t = .ok (ct, t')) :
    ∃ T, DnfPolicy.fromString text ks lang = .ok T ∧
    ct.e = tuples pk (env.pair (t.g1 0) (t.g2 0)) (t.fr 0 • env.pair (t.g1 0) (t.g2 0)) (dropS 1 t.fr)
      (T.map (DnfTerm.map f1 f2 ft gt)) := by
  simp only [encrypt, RM.bind_ok, RM.lift_ok_iff] at h
  obtain ⟨v, _, ⟨hv, rfl⟩, h⟩ := h
  split at h
  · simp only [RM.bind_ok, RM.genG1, RM.genG2, RM.genFr, RM.lift_ok_iff, RM.pure_ok, Res.ok.injEq,
      Prod.mk.injEq, encryptSymmetric_ok_iff, haks] at h
    obtain ⟨l, _, ⟨hl, rfl⟩, _, _, ⟨rfl, rfl⟩, _, _, ⟨rfl, rfl⟩, _, _, ⟨rfl, rfl⟩, js, _, hjs, d, _, ⟨rfl, c, hc, rfl⟩, rfl, rfl⟩ := h
    cases hT : DnfPolicy.fromString text (ks.map (PubAttr.map f1 f2 ft gt)) lang with
    | err => rw [hT] at hl; simp [Res.unwrap] at hl
    | panic => rw [hT] at hl; simp [Res.unwrap] at hl
    | ok l' =>
      obtain rfl : l' = l := by rw [hT] at hl; simpa [Res.unwrap] using hl
      obtain ⟨T, h1, h2⟩ := fromString_map _ _ _ _ hT
      exact ⟨T, h1, by rw [mapL_encTerm _ _ _ _ _ _ _ hjs, h2]⟩
  · simp at h

/-- Tuple `j` of a ciphertext. -/
theorem tuples_eq (pk : PublicKey G1 G2 Gt) (msg1 msg2 : Gt) : ∀ (r : ℕ → F) (l : List (DnfTerm G1 G2 Gt)),
    tuples pk msg1 msg2 r l = l.zipIdx.map fun x =>
      { str := x.1.attrs, j1 := r x.2 • x.1.gt1 + msg1, j2 := r x.2 • x.1.gt2 + msg2, j3 := r x.2 • pk.p1,
        j4 := r x.2 • pk.p2, j5 := r x.2 • x.1.g1, j6 := r x.2 • x.1.g2 }
  | _, [] => rfl
  | r, T :: Ts => by
    rw [tuples, tuples_eq pk msg1 msg2 (dropS 1 r) Ts, List.zipIdx_cons', List.map_cons, List.map_map]
    congr 1
    refine List.map_congr_left fun x _ => ?_
    simp [dropS, Nat.add_comm]

/-- The elements of `G1` or `G2` as symbols. -/
def symbols (env : Env F G1 G2 Gt) (names : Fin a → Str) (keys : List (Fin a × Str))
    (members : Fin m → Str × List (Fin a × Str)) (others : List (CpJob F G1 G2 Gt)) : List (Sym a m n F) :=
  [.pub 1 0 0, .pub 0 0 1] ++ (keySyms env names keys ++ (memberSyms env names (fun v => (members v).2) ++
    (((List.finRange n).map .ctP ++ (List.finRange n).map .ctE) ++
      others.flatMap fun o => ((conjunctions env names keys o.text o.lang).zipIdx.map fun x => .pub 0 0 (o.tape.fr (x.2 + 1))) ++
        (conjunctions env names keys o.text o.lang).zipIdx.map fun x => .pub 0 (o.tape.fr (x.2 + 1) • x.1) 0)))

/-- The elements of `Gt` as symbols. -/
def tsymbols (env : Env F G1 G2 Gt) (φ : Gt →ₗ[F] F) (names : Fin a → Str) (keys : List (Fin a × Str))
    (others : List (CpJob F G1 G2 Gt)) : List (TSym a n F) :=
  [.pub 0 1 0 0 0, .pub 0 0 1 0 0] ++ ((keys.flatMap fun r => [.pub 0 0 0 (Pi.single r.1 (weight env names r)) 0,
    .pub 0 0 0 0 (Pi.single r.1 (weight env names r))]) ++
    (((List.finRange n).map .ct1 ++ (List.finRange n).map .ct2) ++
      others.flatMap fun o => ((conjunctions env names keys o.text o.lang).zipIdx.map fun x =>
        .pub (φ (env.pair (o.tape.g1 0) (o.tape.g2 0))) 0 0 (o.tape.fr (x.2 + 1) • x.1) 0) ++
        (conjunctions env names keys o.text o.lang).zipIdx.map fun x =>
          .pub (φ (o.tape.fr 0 • env.pair (o.tape.g1 0) (o.tape.g2 0))) 0 0 0 (o.tape.fr (x.2 + 1) • x.1)))

theorem setup_eq {env : Env F G1 G2 Gt} {t t' : Tape F G1 G2 Gt} {x : Choice a m n → F} {pk : PublicKey G1 G2 Gt}
    {msk : MasterKey G1 G2} (h : setup env (startTape t x) = .ok ((pk, msk), t')) :
    pk = ⟨t.g1 0, t.g2 0, x .p1 • t.g1 0, x .p2 • t.g2 0, x .y1 • env.pair (t.g1 0) (t.g2 0),
      x .y2 • env.pair (t.g1 0) (t.g2 0)⟩ ∧ msk = ⟨x .y1 • t.g1 0, x .y2 • t.g2 0⟩ := by
  simp only [setup, RM.bind_ok, RM.genG1, RM.genG2, RM.genFr, RM.pure_ok, Res.ok.injEq, Prod.mk.injEq, startTape] at h
  obtain ⟨_, _, ⟨rfl, rfl⟩, _, _, ⟨rfl, rfl⟩, _, _, ⟨rfl, rfl⟩, _, _, ⟨rfl, rfl⟩, _, _, ⟨rfl, rfl⟩, _, _, ⟨rfl, rfl⟩,
    ⟨rfl, rfl⟩, rfl⟩ := h
  simp [dropS]

theorem authgen_eq {name : Str} {t t' : Tape F G1 G2 Gt} {y : F} {s : SecretAuthorityKey F}
    (h : authgen name (t.setFr 0 y) = .ok (s, t')) : s = ⟨name, y⟩ := by
  simp only [authgen, RM.bind_ok, RM.genFr, RM.pure_ok, Res.ok.injEq, Prod.mk.injEq] at h
  obtain ⟨_, _, ⟨rfl, rfl⟩, rfl, rfl⟩ := h
  simp [Tape.setFr]

theorem keygen_eq {pk : PublicKey G1 G2 Gt} {msk : MasterKey G1 G2} {name : Str} {t t' : Tape F G1 G2 Gt} {y : F}
    {s : UserKey G1 G2} (h : keygen pk msk name (t.setFr 0 y) = .ok (s, t')) :
    s = ⟨⟨msk.g1 + y • pk.p1, msk.g2 + y • pk.p2⟩, ⟨name, y • pk.g1, y • pk.g2⟩, []⟩ := by
  simp only [keygen, RM.bind_ok, RM.genFr, RM.pure_ok, Res.ok.injEq, Prod.mk.injEq] at h
  obtain ⟨_, _, ⟨rfl, rfl⟩, rfl, rfl⟩ := h
  simp [Tape.setFr]

theorem requestPk_eq {env : Env F G1 G2 Gt} {pk : PublicKey G1 G2 Gt} {names : Fin a → Str} {ρ : Fin a → F} :
    ∀ {keys : List (Fin a × Str)} {aks : List (PublicAttributeKey G1 G2 Gt)},
    List.Forall₂ (fun r ak => requestAuthorityPk env pk r.2 ⟨names r.1, ρ r.1⟩ = .ok ak) keys aks →
    aks = keys.map fun r => ⟨r.2, (weight env names r * ρ r.1) • pk.g1, (weight env names r * ρ r.1) • pk.g2,
      (weight env names r * ρ r.1) • pk.eGgY1, (weight env names r * ρ r.1) • pk.eGgY2⟩
  | _, _, .nil => rfl
  | _, _, .cons h l => by
    rw [requestPk_eq l, List.map_cons]
    congr 1
    simp only [requestAuthorityPk] at h
    split at h
    · exact (Res.ok.inj h).symm
    · simp at h

theorem requestSk_eq {env : Env F G1 G2 Gt} {pk : PublicUserKey G1 G2} {names : Fin a → Str} {ρ : Fin a → F} :
    ∀ {keys : List (Fin a × Str)} {aks : List (SecretAttributeKey G1 G2)},
    List.Forall₂ (fun r ak => requestAuthoritySk env pk r.2 ⟨names r.1, ρ r.1⟩ = .ok ak) keys aks →
    aks = keys.map fun r => ⟨r.2, (weight env names r * ρ r.1) • pk.g1, (weight env names r * ρ r.1) • pk.g2⟩
  | _, _, .nil => rfl
  | _, _, .cons h l => by
    rw [requestSk_eq l, List.map_cons]
    congr 1
    simp only [requestAuthoritySk] at h
    split at h
    · exact (Res.ok.inj h).symm
    · simp at h

/-- The conjunctions of the ciphertext of `job`. -/
abbrev terms (env : Env F G1 G2 Gt) (names : Fin a → Str) (keys : List (Fin a × Str)) (job : CpJob F G1 G2 Gt) :
    List (Fin a → F) := conjunctions env names keys job.text job.lang

/-- The group elements of a ciphertext as multiples of the generators. -/
theorem ct_seen {env : Env F G1 G2 Gt} {names : Fin a → Str} {keys : List (Fin a × Str)} {g1 : G1} {g2 : G2} {p1 p2 y1 y2 : F}
    {ρ : Fin a → F} {aks : List (PublicAttributeKey G1 G2 Gt)}
    (haks : aks.map PublicAttributeKey.view = (vectorKeys env names keys).map (PubAttr.map
      (comboHom ρ g1) (comboHom ρ g2) (comboHom ρ (y1 • env.pair g1 g2)) (comboHom ρ (y2 • env.pair g1 g2))))
    {text : Str} {lang : PolicyLanguage} {p : Bytes} {o o' : Tape F G1 G2 Gt} {ct : Ciphertext G1 G2 Gt}
    (h : encrypt env ⟨g1, g2, p1 • g1, p2 • g2, y1 • env.pair g1 g2, y2 • env.pair g1 g2⟩ aks text lang p o = .ok (ct, o')) :
    ct.seen.one = (conjunctions env names keys text lang).zipIdx.map (fun z => (o.fr (z.2 + 1) * p1) • g1) ++
      (conjunctions env names keys text lang).zipIdx.map (fun z => (o.fr (z.2 + 1) * combo z.1 ρ) • g1) ∧
    ct.seen.two = (conjunctions env names keys text lang).zipIdx.map (fun z => (o.fr (z.2 + 1) * p2) • g2) ++
      (conjunctions env names keys text lang).zipIdx.map (fun z => (o.fr (z.2 + 1) * combo z.1 ρ) • g2) ∧
    ct.seen.tgt = (conjunctions env names keys text lang).zipIdx.map (fun z => (o.fr (z.2 + 1) * combo z.1 ρ * y1) •
        env.pair g1 g2 + env.pair (o.g1 0) (o.g2 0)) ++
      (conjunctions env names keys text lang).zipIdx.map (fun z => (o.fr (z.2 + 1) * combo z.1 ρ * y2) •
        env.pair g1 g2 + o.fr 0 • env.pair (o.g1 0) (o.g2 0)) := by
  obtain ⟨T, hT, he⟩ := encrypt_terms haks h
  have hv : vectorTerms env names keys text lang = T := by simp [vectorTerms, hT]
  have hd := conjunctions_diag env names keys text lang
  rw [hv] at hd
  have hc : conjunctions env names keys text lang = T.map (·.gt1) := by simp [conjunctions, hv]
  rw [hc]
  simp only [Ciphertext.seen, he, tuples_eq, List.zipIdx_map, List.map_map]
  refine ⟨?_, ?_, ?_⟩ <;> congr 1 <;> refine List.map_congr_left fun z hz => ?_ <;>
    obtain ⟨d1, d2, d3⟩ := hd z.1 (List.fst_mem_of_mem_zipIdx hz) <;>
    simp [DnfTerm.map, comboHom, dropS, d1, d2, d3, smul_smul, Nat.add_comm, mul_assoc]

/-- The view of a run of the coalition, as values of symbols. -/
theorem run_view {env : Env F G1 G2 Gt} {t : Tape F G1 G2 Gt} {names : Fin a → Str}
    {keys : List (Fin a × Str)} {members : Fin m → Str × List (Fin a × Str)} {job : CpJob F G1 G2 Gt}
    {others : List (CpJob F G1 G2 Gt)} {x : Choice a m (terms env names keys job).length → F} {V : View G1 G2 Gt}
    (h : Run env t names keys members job others x V) :
    V.one = (symbols env names keys members others).map (fun s => (reading x).one (terms env names keys job).get s • t.g1 0) ∧
    V.two = (symbols env names keys members others).map (fun s => (reading x).two (terms env names keys job).get s • t.g2 0) ∧
    (∀ φ : Gt →ₗ[F] F, φ (env.pair (t.g1 0) (t.g2 0)) = 1 → V.tgt.map φ =
      (tsymbols env φ names keys others).map ((reading x).tgt (terms env names keys job).get)) ∧
    ∀ j : Fin (terms env names keys job).length,
      V.tgt[2 + 2 * keys.length + j]? = some ((x (.enc j) * combo ((terms env names keys job).get j) (fun i => x (.auth i)) *
        x .y1) • env.pair (t.g1 0) (t.g2 0) + x .ses • env.pair (t.g1 0) (t.g2 0)) ∧
      V.tgt[2 + 2 * keys.length + (terms env names keys job).length + j]? =
        some ((x (.enc j) * combo ((terms env names keys job).get j) (fun i => x (.auth i)) *
        x .y2) • env.pair (t.g1 0) (t.g2 0) + x .fac • x .ses • env.pair (t.g1 0) (t.g2 0)) := by
  obtain ⟨pk, msk, t', as, aks, us, ss, ct, u, cts, hs, ha, hk, hu, hr, he, ho, rfl⟩ := h
  obtain ⟨rfl, rfl⟩ := setup_eq hs
  obtain rfl : as = fun i => ⟨names i, x (.auth i)⟩ := funext fun i => by obtain ⟨_, h⟩ := ha i; exact authgen_eq h
  have hk' := requestPk_eq (ρ := fun i => x (.auth i)) hk
  obtain rfl : us = fun v => _ := funext fun v => by obtain ⟨_, h⟩ := hu v; exact keygen_eq h
  obtain rfl : ss = fun v => _ := funext fun v => requestSk_eq (ρ := fun i => x (.auth i)) (hr v)
  have haks : aks.map PublicAttributeKey.view = (vectorKeys env names keys).map (PubAttr.map
      (comboHom (fun i => x (.auth i)) (t.g1 0)) (comboHom (fun i => x (.auth i)) (t.g2 0))
      (comboHom (fun i => x (.auth i)) (x .y1 • env.pair (t.g1 0) (t.g2 0)))
      (comboHom (fun i => x (.auth i)) (x .y2 • env.pair (t.g1 0) (t.g2 0)))) := by
    rw [hk']
    simp [vectorKeys, PublicAttributeKey.view, PubAttr.map, comboHom, combo_single]
  obtain ⟨c1, c2, ct3⟩ := ct_seen haks he
  have f1 : ∀ j : Fin (terms env names keys job).length, (encTape t job.tape x).fr (j + 1) = x (.enc j) := by
    intro j; simp [encTape]
  have f2 : env.pair ((encTape t job.tape x).g1 0) ((encTape t job.tape x).g2 0) = x .ses • env.pair (t.g1 0) (t.g2 0) := by
    simp [encTape]
  have f3 : (encTape t job.tape x).fr 0 = x .fac := by simp [encTape]
  simp only [zipIdx_finRange, f1, f2, f3] at c1 c2 ct3
  have o1 := flatMap_forall₂ (f := fun c : Ciphertext G1 G2 Gt => c.seen.one) (fun o c (h : ∃ u, _ = _) => by
    obtain ⟨_, h⟩ := h; exact (ct_seen haks h).1) ho
  have o2 := flatMap_forall₂ (f := fun c : Ciphertext G1 G2 Gt => c.seen.two) (fun o c (h : ∃ u, _ = _) => by
    obtain ⟨_, h⟩ := h; exact (ct_seen haks h).2.1) ho
  have o3 := flatMap_forall₂ (f := fun c : Ciphertext G1 G2 Gt => c.seen.tgt) (fun o c (h : ∃ u, _ = _) => by
    obtain ⟨_, h⟩ := h; exact (ct_seen haks h).2.2) ho
  have z0 : ∀ v : Fin a → F, combo (0 : Fin a → F) v = 0 := by intro v; simp [combo]
  refine ⟨?_, ?_, ?_, ?_⟩
  · simp only [all_one, List.flatMap_cons, List.flatMap_map, o1, c1, symbols, List.map_append, hk', keySyms, memberSyms,
      List.map_flatMap, List.map_map, List.map_cons, List.map_nil, PublicKey.seen, UserKey.seen]
    congr 1
    · simp [Reading.one, Sym.val, reading, z0]
    congr 1
    · simp only [List.map_eq_flatMap]
      refine List.flatMap_congr fun r _ => ?_
      simp [PublicAttributeKey.seen, Reading.one, Sym.val, reading, combo_single]
    congr 1
    · refine List.flatMap_congr fun v _ => ?_
      simp [Reading.one, Sym.val, reading, add_smul, mul_smul]
    congr 1
    refine List.flatMap_congr fun o _ => ?_
    congr 1 <;> refine List.map_congr_left fun z _ => ?_ <;>
      simp [Reading.one, Sym.val, reading, combo_smul, z0]
  · simp only [all_two, List.flatMap_cons, List.flatMap_map, o2, c2, symbols, List.map_append, hk', keySyms, memberSyms,
      List.map_flatMap, List.map_map, List.map_cons, List.map_nil, PublicKey.seen, UserKey.seen]
    congr 1
    · simp [Reading.two, Sym.val, reading, z0]
    congr 1
    · simp only [List.map_eq_flatMap]
      refine List.flatMap_congr fun r _ => ?_
      simp [PublicAttributeKey.seen, Reading.two, Sym.val, reading, combo_single]
    congr 1
    · refine List.flatMap_congr fun v _ => ?_
      simp [Reading.two, Sym.val, reading, add_smul, mul_smul]
    congr 1
    refine List.flatMap_congr fun o _ => ?_
    congr 1 <;> refine List.map_congr_left fun z _ => ?_ <;>
      simp [Reading.two, Sym.val, reading, combo_smul, z0]
  · intro φ hφ
    simp only [all_tgt, List.flatMap_cons, List.flatMap_map, o3, ct3, tsymbols, List.map_append, hk',
      List.map_flatMap, List.map_map, List.map_cons, List.map_nil, PublicKey.seen, UserKey.seen]
    congr 1
    · simp [Reading.tgt, TSym.val, reading, z0, hφ]
    congr 1
    · refine List.flatMap_congr fun r _ => ?_
      simp [PublicAttributeKey.seen, Reading.tgt, TSym.val, reading, combo_single, hφ, z0]
    rw [show List.flatMap (fun _ : Fin m => ([] : List F)) (List.finRange m) = [] by simp, List.nil_append]
    congr 1
    · congr 1 <;> refine List.map_congr_left fun z _ => ?_ <;>
        simp [Reading.tgt, TSym.val, reading, hφ]
    refine List.flatMap_congr fun o _ => ?_
    congr 1 <;> refine List.map_congr_left fun z _ => ?_ <;>
      simp [Reading.tgt, TSym.val, reading, combo_smul, z0, hφ, add_comm]

  · intro j
    have hl : ∀ l : List (Fin a × Str), (l.flatMap fun r => (PublicAttributeKey.seen (⟨r.2,
        (weight env names r * x (.auth r.1)) • t.g1 0, (weight env names r * x (.auth r.1)) • t.g2 0,
        (weight env names r * x (.auth r.1)) • x .y1 • env.pair (t.g1 0) (t.g2 0),
        (weight env names r * x (.auth r.1)) • x .y2 • env.pair (t.g1 0) (t.g2 0)⟩ :
        PublicAttributeKey G1 G2 Gt)).tgt).length = 2 * l.length := by
      intro l
      induction l with
      | nil => rfl
      | cons r l ih =>
        rw [List.flatMap_cons, List.length_append, ih]
        simp [PublicAttributeKey.seen]; ring
    simp only [all_tgt, List.flatMap_cons, List.flatMap_map, hk', ct3, PublicKey.seen, UserKey.seen, List.append_assoc]
    rw [show List.flatMap (fun _ : Fin m => ([] : List Gt)) (List.finRange m) = [] by simp, List.nil_append]
    constructor
    · rw [← List.append_assoc, getElem?_block _ _ _ _ (j : ℕ) (by simp [hl]; omega) (by simp)]
      simp
    · show (_ : List Gt)[2 + 2 * keys.length + (conjunctions env names keys job.text job.lang).length + (j : ℕ)]? = _
      rw [← List.append_assoc, ← List.append_assoc, getElem?_block _ _ _ _ (j : ℕ) (by simp [hl]; omega) (by simp)]
      simp

open Classical in
/-- **C86, MKE08.** Suppose that in every conjunction of the policy each member of a coalition has asked one of its
authorities for nothing. Then every computation on the public keys, all keys of all members and all other ciphertexts finds
the element the plaintext is encrypted under for at most the fraction `4 / q` of the random choices, however the attributes
are spread over the members. -/
theorem C86_authorities [Fintype F] (env : Env F G1 G2 Gt) (k : Formula F) (t : Tape F G1 G2 Gt)
    (hpair : env.pair (t.g1 0) (t.g2 0) ≠ 0) (names : Fin a → Str) (keys : List (Fin a × Str))
    (members : Fin m → Str × List (Fin a × Str)) (job : CpJob F G1 G2 Gt) (others : List (CpJob F G1 G2 Gt))
    (hexp : ∀ c ∈ conjunctions env names keys job.text job.lang, ∃ i, c i ≠ 0)
    (hmiss : ∀ c ∈ conjunctions env names keys job.text job.lang, ∀ v, ∃ i, c i ≠ 0 ∧
      ∀ r ∈ (members v).2, r.1 = i → weight env names r = 0) :
    (Finset.univ.filter (Coalition (n := (conjunctions env names keys job.text job.lang).length) env k t names keys members
      job others)).card * Fintype.card F ≤
    4 * Fintype.card (Choice a m (conjunctions env names keys job.text job.lang).length → F) := by
  obtain ⟨φ, hφ⟩ := exists_functional (F := F) _ hpair
  have hno : ∀ (v : Fin m) (i : Fin a) (c : F), (∀ r ∈ (members v).2, r.1 = i → weight env names r = 0) →
      Sym.att v i c ∈ symbols (n := (terms env names keys job).length) env names keys members others → c = 0 := by
    intro v i c hr hmem
    simp only [symbols, keySyms, memberSyms, List.mem_append, List.mem_cons, List.mem_map, List.mem_flatMap, List.not_mem_nil,
      reduceCtorEq, and_false, exists_false, or_false, false_or, or_self, Sym.att.injEq] at hmem
    obtain ⟨_, _, r, hr', h1, h2, h3⟩ := hmem
    subst h1
    rw [← h3, hr r hr' h2]
  have hX : ∀ c : Choice a m (terms env names keys job).length, (X c : MvPolynomial _ F).totalDegree ≤ 1 :=
    fun c => (totalDegree_X c).le
  refine lacking_bound k (symbols env names keys members others) (symbols env names keys members others)
    (tsymbols env φ names keys others) (terms env names keys job).get (fun j => hexp _ (List.get_mem _ j)) ?_
    (reading (P := MvPolynomial _ F) X) ?_ ?_ ?_ ?_ ?_ ?_ ?_ ?_ ?_ ?_ ?_ ?_ 1 ?_ _ ?_
  · intro j v
    obtain ⟨i, hi, hr⟩ := hmiss _ (List.get_mem _ j) v
    exact ⟨i, hi, fun c hc => hno v i c hr (hc.elim id id)⟩
  · exact fun _ => hX .y1
  · exact fun _ => hX .y2
  · exact hX .p1
  · exact hX .p2
  · exact fun v => hX (.user v)
  · exact fun i => hX (.auth i)
  · exact fun j => hX (.enc j)
  · exact hX .y1
  · exact hX .y2
  · exact (hX .ses).trans (by norm_num)
  · exact mul_degree (hX .fac) (hX .ses) (by norm_num)
  · exact mul_degree (add_degree (by simp) (hX .fac)) (hX .ses) (by norm_num)
  · intro y p z μ ρ r
    refine ⟨fun | .y1 => 0 | .y2 => y | .p1 => 0 | .p2 => p | .auth i => ρ i | .user v => μ v | .enc j => r j | .ses => 1 | .fac => z, ?_⟩
    rw [reading_map]
    simp [reading]
  · intro x hx
    rw [reading_map]
    obtain ⟨V, hV, hk⟩ := (Finset.mem_filter.1 hx).2
    obtain ⟨h1, h2, h3, _⟩ := run_view hV
    have := congrArg φ hk
    rw [session, map_smul, hφ, smul_eq_mul, mul_one] at this
    exact (eval_scalar env k (t.g1 0) (t.g2 0) φ hφ _ _ _ _ (by rw [h1, List.map_map]; rfl) (by rw [h2, List.map_map]; rfl)
      (h3 φ hφ)).symm.trans this

/-- **C86, MKE08.** The condition is exact: if a conjunction has no exponents at all, or if one member has a key with an
exponent from every authority that has an exponent in it, one computation finds the element in every run. -/
theorem C86_authorities_exact (env : Env F G1 G2 Gt) (t : Tape F G1 G2 Gt) (names : Fin a → Str) (keys : List (Fin a × Str))
    (members : Fin m → Str × List (Fin a × Str)) (job : CpJob F G1 G2 Gt) (others : List (CpJob F G1 G2 Gt))
    (c : Fin a → F) (hc : c ∈ conjunctions env names keys job.text job.lang)
    (h : (∀ i, c i = 0) ∨ ∃ v, ∀ i, c i ≠ 0 → ∃ r ∈ (members v).2, r.1 = i ∧ weight env names r ≠ 0) :
    ∃ k : Formula F, ∀ (x : Choice a m (conjunctions env names keys job.text job.lang).length → F) (V : View G1 G2 Gt),
      Run env t names keys members job others x V → k.eval env V = session env t x := by
  obtain ⟨j, rfl⟩ := List.mem_iff_get.1 hc
  let ι := { q : (Choice a m (terms env names keys job).length → F) × View G1 G2 Gt //
    Run env t names keys members job others q.1 q.2 }
  let W : ι → View G1 G2 Gt := fun q => q.1.2
  have hv := fun q : ι => run_view q.2
  have hT : Computable env W fun q => (q.1.1 (.enc j) * combo ((terms env names keys job).get j) (fun i => q.1.1 (.auth i)) *
    (q.1.1 .y1 + q.1.1 .y2) + (1 + q.1.1 .fac) * q.1.1 .ses) • env.pair (t.g1 0) (t.g2 0) := by
    obtain ⟨k, hk⟩ := (Computable.tgt (env := env) (W := W) _ fun q => ((hv q).2.2.2 j).1).add
      (Computable.tgt _ fun q => ((hv q).2.2.2 j).2)
    refine ⟨k, fun q => (hk q).trans ?_⟩
    module
  suffices H : Computable env W fun q => session env t q.1.1 by
    obtain ⟨k, hk⟩ := H
    exact ⟨k, fun x V h => hk ⟨(x, V), h⟩⟩
  rcases h with h | ⟨v, h⟩
  · obtain ⟨k, hk⟩ := hT
    refine ⟨k, fun q => (hk q).trans ?_⟩
    rw [show (terms env names keys job).get j = 0 from funext h]
    simp [combo, session]
  · refine opener (t.g1 0) (t.g2 0) (terms env names keys job).get (fun q : ι => reading q.1.1)
      (symbols env names keys members others) (fun q => (hv q).1) (fun q => (hv q).2.1) j v ?_ ?_ ?_ ?_ (fun q => rfl) hT
    · simp [symbols]
    · simp [symbols]
    · simp [symbols, memberSyms]
    · intro i hi
      obtain ⟨r, hr, rfl, hw⟩ := h i hi
      refine ⟨weight env names r, hw, ?_⟩
      simp only [symbols, memberSyms, List.mem_append, List.mem_flatMap, List.mem_finRange, List.mem_cons, List.mem_map]
      exact .inr (.inr (.inl ⟨v, trivial, .inr (.inr ⟨r, hr, rfl⟩)⟩))

/-- The two users meet the conditions of `C86_authorities`, and a run exists. -/
example : toyEnv.pair (toyTape.g1 0) (toyTape.g2 0) ≠ 0 ∧
    (∀ c ∈ conjunctions toyEnv caseNames caseKeys caseJob.text caseJob.lang, ∃ i, c i ≠ 0) ∧
    (∀ c ∈ conjunctions toyEnv caseNames caseKeys caseJob.text caseJob.lang, ∀ v, ∃ i, c i ≠ 0 ∧
      ∀ r ∈ (casePair v).2, r.1 = i → weight toyEnv caseNames r = 0) ∧
    ∃ V, Run (n := 1) toyEnv toyTape caseNames caseKeys casePair caseJob [caseJob] (fun _ => 3) V := by
  refine ⟨by decide +kernel, fun c hc => ⟨0, (case_conjunctions c hc).1⟩, fun c hc v => ?_, ?_⟩
  · fin_cases v
    · exact ⟨1, (case_conjunctions c hc).2, by simp [casePair]⟩
    · exact ⟨0, (case_conjunctions c hc).1, by simp [casePair]⟩
  have h : (setup toyEnv (startTape (n := 1) (a := 2) (m := 2) toyTape (fun _ => 3))).check (fun x =>
      (authgen (F := Fr) (G1 := Fr) (G2 := Fr) (Gt := Fr) ['A'] (toyTape.setFr 0 3)).check fun a =>
      (authgen (F := Fr) (G1 := Fr) (G2 := Fr) (Gt := Fr) ['B'] (toyTape.setFr 0 3)).check fun b =>
      (requestAuthorityPk toyEnv x.1.1 (chars% "A::a") a.1).check fun k =>
      (requestAuthorityPk toyEnv x.1.1 (chars% "B::b") b.1).check fun l =>
      (keygen x.1.1 x.1.2 ['u'] (toyTape.setFr 0 3)).check fun u =>
      (keygen x.1.1 x.1.2 ['v'] (toyTape.setFr 0 3)).check fun v =>
      (requestAuthoritySk toyEnv u.1.pk (chars% "A::a") a.1).check fun ku =>
      (requestAuthoritySk toyEnv v.1.pk (chars% "B::b") b.1).check fun kv =>
      (encrypt toyEnv x.1.1 [k, l] caseJob.text caseJob.lang caseJob.plain
        (encTape (a := 2) (m := 2) (n := 1) toyTape caseJob.tape fun _ => 3)).check fun y =>
      (encrypt toyEnv x.1.1 [k, l] caseJob.text caseJob.lang caseJob.plain caseJob.tape).check fun z => true) = true := by
    decide +kernel
  simp only [Res.check_iff] at h
  obtain ⟨⟨⟨pk, msk⟩, t'⟩, h1, ⟨a, wa⟩, ha, ⟨b, wb⟩, hb, k, hk, l, hl, ⟨u, wu⟩, hu, ⟨v, wv⟩, hv, ku, hku, kv, hkv, ⟨ct, w⟩, h2,
    ⟨c, w'⟩, h3, _⟩ := h
  refine ⟨_, pk, msk, t', ![a, b], [k, l], ![u, v], ![[ku], [kv]], ct, w, [c], h1, ?_, .cons hk (.cons hl .nil), ?_, ?_, h2,
    .cons ⟨w', h3⟩ .nil, rfl⟩
  · intro i; fin_cases i
    exacts [⟨wa, ha⟩, ⟨wb, hb⟩]
  · intro i; fin_cases i
    exacts [⟨wu, hu⟩, ⟨wv, hv⟩]
  · intro i; fin_cases i
    exacts [.cons hku .nil, .cons hkv .nil]

/-- The single user meets the condition of `C86_authorities_exact`. -/
example : ∃ c ∈ conjunctions toyEnv caseNames caseKeys caseJob.text caseJob.lang, ∃ v, ∀ i, c i ≠ 0 →
    ∃ r ∈ (caseBoth v).2, r.1 = i ∧ weight toyEnv caseNames r ≠ 0 := by
  obtain ⟨c, hc⟩ := case_mem
  refine ⟨c, hc, 0, fun i _ => ?_⟩
  fin_cases i
  · exact ⟨_, List.mem_cons_self, rfl, by decide +kernel⟩
  · exact ⟨_, List.mem_cons_of_mem _ List.mem_cons_self, rfl, by decide +kernel⟩

end Mke08
end Rabe
