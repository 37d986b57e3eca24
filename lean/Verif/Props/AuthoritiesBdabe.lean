import Verif.Props.Authorities

/-!
# C86 for BDABE

The statements for MKE08 are in `Verif/Props/Authorities.lean`.
-/

set_option linter.unusedSectionVars false

namespace Rabe

open MvPolynomial

variable {F G1 G2 Gt : Type} [Field F] [DecidableEq F] [AddCommGroup G1] [Module F G1]
  [AddCommGroup G2] [Module F G2] [AddCommGroup Gt] [Module F Gt]

namespace Bdabe

/-- The random choices that are varied: the master secret, the two common points as multiples of the generators, the share
of the master secret and the secret of every authority, the secrets of the members, and of the encryption the numbers of
the conjunctions and the point of `G1` as a multiple of the generator. -/
inductive Choice (a m n : ℕ)
  | y | p1 | p2 | share (i : Fin a) | auth (i : Fin a) | user (v : Fin m) | enc (j : Fin n) | ses
  deriving DecidableEq, Fintype

variable {a m n : ℕ}

/-- A member of a coalition: the authority the user key comes from, the name and the requested attribute keys. -/
structure Member (a : ℕ) where
  home : Fin a
  name : Str
  requests : List (Fin a × Str)

/-- The stream of `setup`. -/
def startTape (t : Tape F G1 G2 Gt) (x : Choice a m n → F) : Tape F G1 G2 Gt :=
  { t with
    g1 := fun i => if i = 1 then x .p1 • t.g1 0 else t.g1 i
    g2 := fun i => if i = 1 then x .p2 • t.g2 0 else t.g2 i
    fr := fun _ => x .y }

/-- The stream of `authgen`. -/
def authTape (t : Tape F G1 G2 Gt) (x : Choice a m n → F) (i : Fin a) : Tape F G1 G2 Gt :=
  { t with fr := fun n => if n = 0 then x (.share i) else x (.auth i) }

/-- The stream of `encrypt`. -/
def encTape (t o : Tape F G1 G2 Gt) (x : Choice a m n → F) : Tape F G1 G2 Gt :=
  { o with
    g1 := fun i => if i = 0 then x .ses • t.g1 0 else o.g1 i
    g2 := fun i => if i = 0 then t.g2 0 else o.g2 i
    fr := fun i => if h : i < n then x (.enc ⟨i, h⟩) else o.fr i }

/-- The group elements of a user key, `/repo/src/schemes/bdabe/mod.rs:70-102`. -/
def UserKey.seen (k : UserKey G1 G2) : View G1 G2 Gt :=
  ⟨k.sk.u1 :: k.pk.u1 :: k.skA.map (·.au1), k.sk.u2 :: k.pk.u2 :: k.skA.map (·.au2), []⟩

/-- `V` is what the coalition has in a run with the random choices `x`: the public key, the public attribute keys `keys`, all
keys of all members, the ciphertext made by `job` and the ciphertexts made by `others`. -/
def Run (env : Env F G1 G2 Gt) (t : Tape F G1 G2 Gt) (names : Fin a → Str) (keys : List (Fin a × Str))
    (members : Fin m → Member a) (job : CpJob F G1 G2 Gt) (others : List (CpJob F G1 G2 Gt))
    (x : Choice a m n → F) (V : View G1 G2 Gt) : Prop :=
  ∃ (pk : PublicKey G1 G2 Gt) (msk : MasterKey F) (t' : Tape F G1 G2 Gt) (as : Fin a → SecretAuthorityKey F G1 G2)
    (aks : List (PublicAttributeKey G1 G2 Gt)) (us : Fin m → UserKey G1 G2) (ss : Fin m → List (SecretAttributeKey G1 G2))
    (ct : Ciphertext G1 G2 Gt) (u : Tape F G1 G2 Gt) (cts : List (Ciphertext G1 G2 Gt)),
    setup env (startTape t x) = .ok ((pk, msk), t') ∧
    (∀ i, ∃ u, authgen pk msk (names i) (authTape t x i) = .ok (as i, u)) ∧
    List.Forall₂ (fun r ak => requestAttributePk env pk (as r.1) r.2 = .ok ak) keys aks ∧
    (∀ v, ∃ u, keygen pk (as (members v).home) (members v).name (t.setFr 0 (x (.user v))) = .ok (us v, u)) ∧
    (∀ v, List.Forall₂ (fun r s => requestAttributeSk env (us v).pk (as r.1) r.2 = .ok s) (members v).requests (ss v)) ∧
    encrypt env pk aks job.text job.lang job.plain (encTape t job.tape x) = .ok (ct, u) ∧
    List.Forall₂ (fun o c => ∃ u, encrypt env pk aks o.text o.lang o.plain o.tape = .ok (c, u)) others cts ∧
    V = View.all (pk.seen :: View.all (aks.map PublicAttributeKey.seen) ::
      View.all ((List.finRange m).map fun v => UserKey.seen { us v with skA := ss v }) :: ct.seen :: cts.map Ciphertext.seen)

/-- The session element, `/repo/src/schemes/bdabe/mod.rs:322-326`. -/
def session (env : Env F G1 G2 Gt) (t : Tape F G1 G2 Gt) (x : Choice a m n → F) : Gt := x .ses • env.pair (t.g1 0) (t.g2 0)

/-- The computation `k` finds this element. -/
def Coalition (env : Env F G1 G2 Gt) (k : Formula F) (t : Tape F G1 G2 Gt) (names : Fin a → Str) (keys : List (Fin a × Str))
    (members : Fin m → Member a) (job : CpJob F G1 G2 Gt) (others : List (CpJob F G1 G2 Gt)) (x : Choice a m n → F) : Prop :=
  ∃ V, Run env t names keys members job others x V ∧ k.eval env V = session env t x

/-- The exponents of the elements at given choices. -/
def reading {P : Type} [CommRing P] (members : Fin m → Member a) (x : Choice a m n → P) : Reading a m n P where
  A1 v := x (.share (members v).home)
  A2 v := x .y - x (.share (members v).home)
  p1 := x .p1
  p2 := x .p2
  μ v := x (.user v)
  ρ i := x (.auth i)
  r j := x (.enc j)
  y1 := 0
  y2 := x .y
  s1 := 1
  s2 := x .ses
  goal := x .ses

theorem reading_map (members : Fin m → Member a) (x : Choice a m n → F) :
    (reading (P := MvPolynomial (Choice a m n) F) members X).map (aeval x) = reading members x := by
  simp [reading, Reading.map]

theorem encrypt_terms {A1 A2 At : Type} [AddCommGroup A1] [AddCommGroup A2] [AddCommGroup At] {f1 : A1 →+ G1} {f2 : A2 →+ G2}
    {ft gt : At →+ Gt} {env : Env F G1 G2 Gt} {pk : PublicKey G1 G2 Gt} {aks : List (PublicAttributeKey G1 G2 Gt)}
    {ks : List (PubAttr A1 A2 At)} (haks : aks.map PublicAttributeKey.view = ks.map (PubAttr.map f1 f2 ft gt))
    {text : Str} {lang : PolicyLanguage} {m : Bytes} {t t' : Tape F G1 G2 Gt} {ct : Ciphertext G1 G2 Gt}
    (h : encrypt env pk aks text lang m t = .ok (ct, t')) :
    ∃ T, DnfPolicy.fromString text ks lang = .ok T ∧
    ct.j = tuples pk (env.pair (t.g1 0) (t.g2 0)) t.fr (T.map (DnfTerm.map f1 f2 ft gt)) := by
  simp only [encrypt, RM.bind_ok, RM.lift_ok_iff] at h
  obtain ⟨v, _, ⟨hv, rfl⟩, h⟩ := h
  split at h
  · simp only [RM.bind_ok, RM.genG1, RM.genG2, RM.lift_ok_iff, RM.pure_ok, Res.ok.injEq,
      Prod.mk.injEq, encryptSymmetric_ok_iff, haks] at h
    obtain ⟨l, _, ⟨hl, rfl⟩, _, _, ⟨rfl, rfl⟩, _, _, ⟨rfl, rfl⟩, js, _, hjs, d, _, ⟨rfl, c, hc, rfl⟩, rfl, rfl⟩ := h
    cases hT : DnfPolicy.fromString text (ks.map (PubAttr.map f1 f2 ft gt)) lang with
    | err => rw [hT] at hl; simp [Res.unwrap] at hl
    | panic => rw [hT] at hl; simp [Res.unwrap] at hl
    | ok l' =>
      obtain rfl : l' = l := by rw [hT] at hl; simpa [Res.unwrap] using hl
      obtain ⟨T, h1, h2⟩ := fromString_map _ _ _ _ hT
      exact ⟨T, h1, by rw [mapL_encTerm _ _ _ _ _ _ hjs, h2]⟩
  · simp at h

/-- Tuple `j` of a ciphertext. -/
theorem tuples_eq (pk : PublicKey G1 G2 Gt) (msg : Gt) : ∀ (r : ℕ → F) (l : List (DnfTerm G1 G2 Gt)),
    tuples pk msg r l = l.zipIdx.map fun x =>
      { attr := x.1.attrs, e1 := r x.2 • x.1.gt1 + msg, e2 := r x.2 • pk.p1, e3 := r x.2 • pk.p2,
        e4 := r x.2 • x.1.g1, e5 := r x.2 • x.1.g2 }
  | _, [] => rfl
  | r, T :: Ts => by
    rw [tuples, tuples_eq pk msg (dropS 1 r) Ts, List.zipIdx_cons', List.map_cons, List.map_map]
    congr 1
    refine List.map_congr_left fun x _ => ?_
    simp [dropS, Nat.add_comm]

/-- The elements of `G1` or `G2` as symbols. -/
def symbols (env : Env F G1 G2 Gt) (names : Fin a → Str) (keys : List (Fin a × Str))
    (members : Fin m → Member a) (others : List (CpJob F G1 G2 Gt)) : List (Sym a m n F) :=
  [.pub 1 0 0, .pub 0 0 1] ++ (keySyms env names keys ++ (memberSyms env names (fun v => (members v).requests) ++
    (((List.finRange n).flatMap fun j => [.ctP j, .ctE j]) ++
      others.flatMap fun o => (conjunctions env names keys o.text o.lang).zipIdx.flatMap fun x =>
        [.pub 0 0 (o.tape.fr x.2), .pub 0 (o.tape.fr x.2 • x.1) 0])))

/-- The elements of `Gt` as symbols. -/
def tsymbols (env : Env F G1 G2 Gt) (φ : Gt →ₗ[F] F) (names : Fin a → Str) (keys : List (Fin a × Str))
    (others : List (CpJob F G1 G2 Gt)) : List (TSym a n F) :=
  [.pub 0 0 1 0 0] ++ ((keys.map fun r => .pub 0 0 0 0 (Pi.single r.1 (weight env names r))) ++
    ((List.finRange n).map .ct2 ++
      others.flatMap fun o => (conjunctions env names keys o.text o.lang).zipIdx.map fun x =>
        .pub (φ (env.pair (o.tape.g1 0) (o.tape.g2 0))) 0 0 0 (o.tape.fr x.2 • x.1)))

theorem setup_eq {env : Env F G1 G2 Gt} {t t' : Tape F G1 G2 Gt} {x : Choice a m n → F} {pk : PublicKey G1 G2 Gt}
    {msk : MasterKey F} (h : setup env (startTape t x) = .ok ((pk, msk), t')) :
    pk = ⟨t.g1 0, t.g2 0, x .p1 • t.g1 0, x .p2 • t.g2 0, x .y • env.pair (t.g1 0) (t.g2 0)⟩ ∧ msk = ⟨x .y⟩ := by
  simp only [setup, RM.bind_ok, RM.genG1, RM.genG2, RM.genFr, RM.pure_ok, Res.ok.injEq, Prod.mk.injEq, startTape] at h
  obtain ⟨_, _, ⟨rfl, rfl⟩, _, _, ⟨rfl, rfl⟩, _, _, ⟨rfl, rfl⟩, _, _, ⟨rfl, rfl⟩, _, _, ⟨rfl, rfl⟩,
    ⟨rfl, rfl⟩, rfl⟩ := h
  simp [dropS]

theorem authgen_eq {pk : PublicKey G1 G2 Gt} {msk : MasterKey F} {name : Str} {t t' : Tape F G1 G2 Gt}
    {x : Choice a m n → F} {i : Fin a} {s : SecretAuthorityKey F G1 G2}
    (h : authgen pk msk name (authTape t x i) = .ok (s, t')) :
    s = ⟨name, x (.share i) • pk.g1, (msk.y - x (.share i)) • pk.g2, x (.auth i)⟩ := by
  simp only [authgen, RM.bind_ok, RM.genFr, RM.pure_ok, Res.ok.injEq, Prod.mk.injEq] at h
  obtain ⟨_, _, ⟨rfl, rfl⟩, _, _, ⟨rfl, rfl⟩, rfl, rfl⟩ := h
  simp [authTape, dropS]

theorem keygen_eq {pk : PublicKey G1 G2 Gt} {sa : SecretAuthorityKey F G1 G2} {name : Str} {t t' : Tape F G1 G2 Gt} {y : F}
    {s : UserKey G1 G2} (h : keygen pk sa name (t.setFr 0 y) = .ok (s, t')) :
    s = ⟨⟨sa.a1 + y • pk.p1, sa.a2 + y • pk.p2⟩, ⟨name, y • pk.g1, y • pk.g2⟩, []⟩ := by
  simp only [keygen, RM.bind_ok, RM.genFr, RM.pure_ok, Res.ok.injEq, Prod.mk.injEq] at h
  obtain ⟨_, _, ⟨rfl, rfl⟩, rfl, rfl⟩ := h
  simp [Tape.setFr]

theorem requestPk_eq {env : Env F G1 G2 Gt} {pk : PublicKey G1 G2 Gt} {names : Fin a → Str}
    {as : Fin a → SecretAuthorityKey F G1 G2} (ha : ∀ i, (as i).name = names i) :
    ∀ {keys : List (Fin a × Str)} {aks : List (PublicAttributeKey G1 G2 Gt)},
    List.Forall₂ (fun r ak => requestAttributePk env pk (as r.1) r.2 = .ok ak) keys aks →
    aks = keys.map fun r => ⟨r.2, (weight env names r * (as r.1).a3) • pk.g1, (weight env names r * (as r.1).a3) • pk.g2,
      (weight env names r * (as r.1).a3) • pk.eGgY⟩
  | _, _, .nil => rfl
  | _, _, .cons h l => by
    rw [requestPk_eq ha l, List.map_cons]
    congr 1
    simp only [requestAttributePk, ha] at h
    split at h
    · exact (Res.ok.inj h).symm
    · simp at h

theorem requestSk_eq {env : Env F G1 G2 Gt} {pk : PublicUserKey G1 G2} {names : Fin a → Str}
    {as : Fin a → SecretAuthorityKey F G1 G2} (ha : ∀ i, (as i).name = names i) :
    ∀ {keys : List (Fin a × Str)} {aks : List (SecretAttributeKey G1 G2)},
    List.Forall₂ (fun r ak => requestAttributeSk env pk (as r.1) r.2 = .ok ak) keys aks →
    aks = keys.map fun r => ⟨r.2, (weight env names r * (as r.1).a3) • pk.u1, (weight env names r * (as r.1).a3) • pk.u2⟩
  | _, _, .nil => rfl
  | _, _, .cons h l => by
    rw [requestSk_eq ha l, List.map_cons]
    congr 1
    simp only [requestAttributeSk, ha] at h
    split at h
    · exact (Res.ok.inj h).symm
    · simp at h

/-- The conjunctions of the ciphertext of `job`. -/
abbrev terms (env : Env F G1 G2 Gt) (names : Fin a → Str) (keys : List (Fin a × Str)) (job : CpJob F G1 G2 Gt) :
    List (Fin a → F) := conjunctions env names keys job.text job.lang

/-- The group elements of a ciphertext as multiples of the generators. -/
theorem ct_seen {env : Env F G1 G2 Gt} {names : Fin a → Str} {keys : List (Fin a × Str)} {g1 : G1} {g2 : G2} {p1 p2 y : F}
    {ρ : Fin a → F} {aks : List (PublicAttributeKey G1 G2 Gt)}
    (haks : aks.map PublicAttributeKey.view = (vectorKeys env names keys).map (PubAttr.map
      (comboHom ρ g1) (comboHom ρ g2) (comboHom ρ (y • env.pair g1 g2)) 0))
    {text : Str} {lang : PolicyLanguage} {p : Bytes} {o o' : Tape F G1 G2 Gt} {ct : Ciphertext G1 G2 Gt}
    (h : encrypt env ⟨g1, g2, p1 • g1, p2 • g2, y • env.pair g1 g2⟩ aks text lang p o = .ok (ct, o')) :
    ct.seen.one = (conjunctions env names keys text lang).zipIdx.flatMap (fun z => [(o.fr z.2 * p1) • g1,
      (o.fr z.2 * combo z.1 ρ) • g1]) ∧
    ct.seen.two = (conjunctions env names keys text lang).zipIdx.flatMap (fun z => [(o.fr z.2 * p2) • g2,
      (o.fr z.2 * combo z.1 ρ) • g2]) ∧
    ct.seen.tgt = (conjunctions env names keys text lang).zipIdx.map (fun z => (o.fr z.2 * combo z.1 ρ * y) •
        env.pair g1 g2 + env.pair (o.g1 0) (o.g2 0)) := by
  obtain ⟨T, hT, he⟩ := encrypt_terms haks h
  have hv : vectorTerms env names keys text lang = T := by simp [vectorTerms, hT]
  have hd := conjunctions_diag env names keys text lang
  rw [hv] at hd
  have hc : conjunctions env names keys text lang = T.map (·.gt1) := by simp [conjunctions, hv]
  rw [hc]
  simp only [Ciphertext.seen, all_one, all_two, all_tgt, he, tuples_eq, List.zipIdx_map, List.map_map, List.flatMap_map]
  refine ⟨?_, ?_, ?_⟩
  on_goal 3 => rw [List.map_eq_flatMap]
  all_goals refine List.flatMap_congr fun z hz => ?_ <;>
    obtain ⟨d1, d2, d3⟩ := hd z.1 (List.fst_mem_of_mem_zipIdx hz) <;>
    simp [CiphertextTuple.seen, DnfTerm.map, comboHom, d1, d2, smul_smul, mul_assoc]

/-- The view of a run of the coalition, as values of symbols. -/
theorem run_view {env : Env F G1 G2 Gt} {t : Tape F G1 G2 Gt} {names : Fin a → Str}
    {keys : List (Fin a × Str)} {members : Fin m → Member a} {job : CpJob F G1 G2 Gt}
    {others : List (CpJob F G1 G2 Gt)} {x : Choice a m (terms env names keys job).length → F} {V : View G1 G2 Gt}
    (h : Run env t names keys members job others x V) :
    V.one = (symbols env names keys members others).map
      (fun s => (reading members x).one (terms env names keys job).get s • t.g1 0) ∧
    V.two = (symbols env names keys members others).map
      (fun s => (reading members x).two (terms env names keys job).get s • t.g2 0) ∧
    (∀ φ : Gt →ₗ[F] F, φ (env.pair (t.g1 0) (t.g2 0)) = 1 → V.tgt.map φ =
      (tsymbols env φ names keys others).map ((reading members x).tgt (terms env names keys job).get)) ∧
    ∀ j : Fin (terms env names keys job).length,
      V.tgt[1 + keys.length + j]? = some ((x (.enc j) * combo ((terms env names keys job).get j) (fun i => x (.auth i)) *
        x .y) • env.pair (t.g1 0) (t.g2 0) + x .ses • env.pair (t.g1 0) (t.g2 0)) := by
  obtain ⟨pk, msk, t', as, aks, us, ss, ct, u, cts, hs, ha, hk, hu, hr, he, ho, rfl⟩ := h
  obtain ⟨rfl, rfl⟩ := setup_eq hs
  have ha' : ∀ i, as i = _ := fun i => by obtain ⟨_, h⟩ := ha i; exact authgen_eq h
  have hn : ∀ i, (as i).name = names i := fun i => by rw [ha' i]
  have hk' := requestPk_eq hn hk
  obtain rfl : us = fun v => _ := funext fun v => by obtain ⟨_, h⟩ := hu v; exact keygen_eq h
  obtain rfl : ss = fun v => _ := funext fun v => requestSk_eq hn (hr v)
  obtain rfl : as = fun i => _ := funext ha'
  have haks : aks.map PublicAttributeKey.view = (vectorKeys env names keys).map (PubAttr.map
      (comboHom (fun i => x (.auth i)) (t.g1 0)) (comboHom (fun i => x (.auth i)) (t.g2 0))
      (comboHom (fun i => x (.auth i)) (x .y • env.pair (t.g1 0) (t.g2 0))) 0) := by
    rw [hk']
    simp [vectorKeys, PublicAttributeKey.view, PubAttr.map, comboHom, combo_single]
  obtain ⟨c1, c2, ct3⟩ := ct_seen haks he
  have f1 : ∀ j : Fin (terms env names keys job).length, (encTape t job.tape x).fr j = x (.enc j) := by
    intro j; simp [encTape]
  have f2 : env.pair ((encTape t job.tape x).g1 0) ((encTape t job.tape x).g2 0) = x .ses • env.pair (t.g1 0) (t.g2 0) := by
    simp [encTape]
  simp only [List.flatMap_def, zipIdx_finRange, f1, f2] at c1 c2 ct3
  simp only [← List.flatMap_def] at c1 c2 ct3
  have o1 := flatMap_forall₂ (f := fun c : Ciphertext G1 G2 Gt => c.seen.one) (fun o c (h : ∃ u, _ = _) => by
    obtain ⟨_, h⟩ := h; exact (ct_seen haks h).1) ho
  have o2 := flatMap_forall₂ (f := fun c : Ciphertext G1 G2 Gt => c.seen.two) (fun o c (h : ∃ u, _ = _) => by
    obtain ⟨_, h⟩ := h; exact (ct_seen haks h).2.1) ho
  have o3 := flatMap_forall₂ (f := fun c : Ciphertext G1 G2 Gt => c.seen.tgt) (fun o c (h : ∃ u, _ = _) => by
    obtain ⟨_, h⟩ := h; exact (ct_seen haks h).2.2) ho
  have z0 : ∀ v : Fin a → F, combo (0 : Fin a → F) v = 0 := by intro v; simp [combo]
  refine ⟨?_, ?_, ?_, ?_⟩
  · simp only [all_one, List.flatMap_cons, List.flatMap_map, o1, c1, symbols, List.map_append, hk', keySyms, memberSyms,
      List.map_flatMap, List.map_map, List.map_cons, List.map_nil, PublicKey.seen, UserKey.seen]
    congr 1
    · simp [Reading.one, Sym.val, reading, z0]
    congr 1
    · simp only [List.map_eq_flatMap]
      refine List.flatMap_congr fun r _ => ?_
      simp [PublicAttributeKey.seen, Reading.one, Sym.val, reading, combo_single]
    congr 1
    · refine List.flatMap_congr fun v _ => ?_
      simp [Reading.one, Sym.val, reading, add_smul, mul_smul]
    congr 1
    refine List.flatMap_congr fun o _ => ?_
    refine List.flatMap_congr fun z _ => ?_
    simp [Reading.one, Sym.val, reading, combo_smul, z0]
  · simp only [all_two, List.flatMap_cons, List.flatMap_map, o2, c2, symbols, List.map_append, hk', keySyms, memberSyms,
      List.map_flatMap, List.map_map, List.map_cons, List.map_nil, PublicKey.seen, UserKey.seen]
    congr 1
    · simp [Reading.two, Sym.val, reading, z0]
    congr 1
    · simp only [List.map_eq_flatMap]
      refine List.flatMap_congr fun r _ => ?_
      simp [PublicAttributeKey.seen, Reading.two, Sym.val, reading, combo_single]
    congr 1
    · refine List.flatMap_congr fun v _ => ?_
      simp [Reading.two, Sym.val, reading, add_smul, mul_smul]
    congr 1
    refine List.flatMap_congr fun o _ => ?_
    refine List.flatMap_congr fun z _ => ?_
    simp [Reading.two, Sym.val, reading, combo_smul, z0]
  · intro φ hφ
    simp only [all_tgt, List.flatMap_cons, List.flatMap_map, o3, ct3, tsymbols, List.map_append, hk',
      List.map_flatMap, List.map_map, List.map_cons, List.map_nil, PublicKey.seen, UserKey.seen]
    congr 1
    · simp [Reading.tgt, TSym.val, reading, z0, hφ]
    congr 1
    · simp only [List.map_eq_flatMap]
      refine List.flatMap_congr fun r _ => ?_
      simp [PublicAttributeKey.seen, Reading.tgt, TSym.val, reading, combo_single, hφ]
    rw [show List.flatMap (fun _ : Fin m => ([] : List F)) (List.finRange m) = [] by simp, List.nil_append]
    congr 1
    · refine List.map_congr_left fun z _ => ?_
      simp [Reading.tgt, TSym.val, reading, hφ]
    refine List.flatMap_congr fun o _ => ?_
    refine List.map_congr_left fun z _ => ?_
    simp [Reading.tgt, TSym.val, reading, combo_smul, hφ, add_comm]
  · intro j
    simp only [all_tgt, List.flatMap_cons, List.flatMap_map, hk', ct3, PublicKey.seen, UserKey.seen]
    rw [show List.flatMap (fun _ : Fin m => ([] : List Gt)) (List.finRange m) = [] by simp, List.nil_append]
    rw [← List.append_assoc, getElem?_block _ _ _ _ (j : ℕ) (by simp [PublicAttributeKey.seen, List.flatMap_def, Function.comp_def, Nat.add_comm])
      (by simp)]
    simp

open Classical in
/-- **C86, BDABE.** Suppose that in every conjunction of the policy each member of a coalition has asked one of its
authorities for nothing. Then every computation on the public keys, all keys of all members and all other ciphertexts finds
the session element for at most the fraction `4 / q` of the random choices, however the attributes are spread over the
members. -/
theorem C86_authorities [Fintype F] (env : Env F G1 G2 Gt) (k : Formula F) (t : Tape F G1 G2 Gt)
    (hpair : env.pair (t.g1 0) (t.g2 0) ≠ 0) (names : Fin a → Str) (keys : List (Fin a × Str))
    (members : Fin m → Member a) (job : CpJob F G1 G2 Gt) (others : List (CpJob F G1 G2 Gt))
    (hexp : ∀ c ∈ conjunctions env names keys job.text job.lang, ∃ i, c i ≠ 0)
    (hmiss : ∀ c ∈ conjunctions env names keys job.text job.lang, ∀ v, ∃ i, c i ≠ 0 ∧
      ∀ r ∈ (members v).requests, r.1 = i → weight env names r = 0) :
    (Finset.univ.filter (Coalition (n := (conjunctions env names keys job.text job.lang).length) env k t names keys members
      job others)).card * Fintype.card F ≤
    4 * Fintype.card (Choice a m (conjunctions env names keys job.text job.lang).length → F) := by
  obtain ⟨φ, hφ⟩ := exists_functional (F := F) _ hpair
  have hno : ∀ (v : Fin m) (i : Fin a) (c : F), (∀ r ∈ (members v).requests, r.1 = i → weight env names r = 0) →
      Sym.att v i c ∈ symbols (n := (terms env names keys job).length) env names keys members others → c = 0 := by
    intro v i c hr hmem
    simp only [symbols, keySyms, memberSyms, List.mem_append, List.mem_cons, List.mem_map, List.mem_flatMap, List.not_mem_nil,
      reduceCtorEq, and_false, exists_false, or_false, false_or, or_self, Sym.att.injEq] at hmem
    obtain ⟨_, _, r, hr', h1, h2, h3⟩ := hmem
    subst h1
    rw [← h3, hr r hr' h2]
  have hX : ∀ c : Choice a m (terms env names keys job).length, (X c : MvPolynomial _ F).totalDegree ≤ 1 :=
    fun c => (totalDegree_X c).le
  refine lacking_bound k (symbols env names keys members others) (symbols env names keys members others)
    (tsymbols env φ names keys others) (terms env names keys job).get (fun j => hexp _ (List.get_mem _ j)) ?_
    (reading (P := MvPolynomial _ F) members X) ?_ ?_ ?_ ?_ ?_ ?_ ?_ ?_ ?_ ?_ ?_ ?_ 0 ?_ _ ?_
  · intro j v
    obtain ⟨i, hi, hr⟩ := hmiss _ (List.get_mem _ j) v
    exact ⟨i, hi, fun c hc => hno v i c hr (hc.elim id id)⟩
  · exact fun v => hX (.share (members v).home)
  · exact fun v => (totalDegree_sub _ _).trans (max_le (hX .y) (hX (.share (members v).home)))
  · exact hX .p1
  · exact hX .p2
  · exact fun v => hX (.user v)
  · exact fun i => hX (.auth i)
  · exact fun j => hX (.enc j)
  · exact (totalDegree_zero (R := F)).le.trans (by norm_num)
  · exact hX .y
  · exact (totalDegree_one (R := F)).le.trans (by norm_num)
  · exact (hX .ses).trans (by norm_num)
  · exact (hX .ses).trans (by norm_num)
  · intro y p z μ ρ r
    refine ⟨fun | .y => y | .p1 => 0 | .p2 => p | .share _ => 0 | .auth i => ρ i | .user v => μ v | .enc j => r j | .ses => z, ?_⟩
    rw [reading_map]
    simp [reading]
  · intro x hx
    rw [reading_map]
    obtain ⟨V, hV, hk⟩ := (Finset.mem_filter.1 hx).2
    obtain ⟨h1, h2, h3, _⟩ := run_view hV
    have := congrArg φ hk
    rw [session, map_smul, hφ, smul_eq_mul, mul_one] at this
    exact (eval_scalar env k (t.g1 0) (t.g2 0) φ hφ _ _ _ _ (by rw [h1, List.map_map]; rfl) (by rw [h2, List.map_map]; rfl)
      (h3 φ hφ)).symm.trans this

/-- **C86, BDABE.** The condition is exact: if a conjunction has no exponents at all, or if one member has a key with an
exponent from every authority that has an exponent in it, one computation finds the element in every run. -/
theorem C86_authorities_exact (env : Env F G1 G2 Gt) (t : Tape F G1 G2 Gt) (names : Fin a → Str) (keys : List (Fin a × Str))
    (members : Fin m → Member a) (job : CpJob F G1 G2 Gt) (others : List (CpJob F G1 G2 Gt))
    (c : Fin a → F) (hc : c ∈ conjunctions env names keys job.text job.lang)
    (h : (∀ i, c i = 0) ∨ ∃ v, ∀ i, c i ≠ 0 → ∃ r ∈ (members v).requests, r.1 = i ∧ weight env names r ≠ 0) :
    ∃ k : Formula F, ∀ (x : Choice a m (conjunctions env names keys job.text job.lang).length → F) (V : View G1 G2 Gt),
      Run env t names keys members job others x V → k.eval env V = session env t x := by
  obtain ⟨j, rfl⟩ := List.mem_iff_get.1 hc
  let ι := { q : (Choice a m (terms env names keys job).length → F) × View G1 G2 Gt //
    Run env t names keys members job others q.1 q.2 }
  let W : ι → View G1 G2 Gt := fun q => q.1.2
  have hv := fun q : ι => run_view q.2
  have hT : Computable env W fun q => (q.1.1 (.enc j) * combo ((terms env names keys job).get j) (fun i => q.1.1 (.auth i)) *
    (0 + q.1.1 .y) + q.1.1 .ses) • env.pair (t.g1 0) (t.g2 0) := by
    obtain ⟨k, hk⟩ := Computable.tgt (env := env) (W := W) _ fun q => (hv q).2.2.2 j
    refine ⟨k, fun q => (hk q).trans ?_⟩
    module
  suffices H : Computable env W fun q => session env t q.1.1 by
    obtain ⟨k, hk⟩ := H
    exact ⟨k, fun x V h => hk ⟨(x, V), h⟩⟩
  rcases h with h | ⟨v, h⟩
  · obtain ⟨k, hk⟩ := hT
    refine ⟨k, fun q => (hk q).trans ?_⟩
    rw [show (terms env names keys job).get j = 0 from funext h]
    simp [combo, session]
  · refine opener (t.g1 0) (t.g2 0) (terms env names keys job).get (fun q : ι => reading members q.1.1)
      (symbols env names keys members others) (fun q => (hv q).1) (fun q => (hv q).2.1) j v ?_ ?_ ?_ ?_
      (fun q => by simp [reading]) hT
    · simp [symbols]
    · simp [symbols]
    · simp [symbols, memberSyms]
    · intro i hi
      obtain ⟨r, hr, rfl, hw⟩ := h i hi
      refine ⟨weight env names r, hw, ?_⟩
      simp only [symbols, memberSyms, List.mem_append, List.mem_flatMap, List.mem_finRange, List.mem_cons, List.mem_map]
      exact .inr (.inr (.inl ⟨v, trivial, .inr (.inr ⟨r, hr, rfl⟩)⟩))

/-- The users of the case for MKE08, with user keys of different authorities. -/
def casePair : Fin 2 → Member 2 := ![⟨0, ['u'], [(0, chars% "A::a")]⟩, ⟨1, ['v'], [(1, chars% "B::b")]⟩]

/-- They meet the conditions of `C86_authorities`, and a run exists. -/
example : toyEnv.pair (toyTape.g1 0) (toyTape.g2 0) ≠ 0 ∧
    (∀ c ∈ conjunctions toyEnv caseNames caseKeys caseJob.text caseJob.lang, ∃ i, c i ≠ 0) ∧
    (∀ c ∈ conjunctions toyEnv caseNames caseKeys caseJob.text caseJob.lang, ∀ v, ∃ i, c i ≠ 0 ∧
      ∀ r ∈ (casePair v).requests, r.1 = i → weight toyEnv caseNames r = 0) ∧
    ∃ V, Run (n := 1) toyEnv toyTape caseNames caseKeys casePair caseJob [caseJob] (fun _ => 3) V := by
  refine ⟨by decide +kernel, fun c hc => ⟨0, (case_conjunctions c hc).1⟩, fun c hc v => ?_, ?_⟩
  · fin_cases v
    · exact ⟨1, (case_conjunctions c hc).2, by simp [casePair]⟩
    · exact ⟨0, (case_conjunctions c hc).1, by simp [casePair]⟩
  have h : (setup toyEnv (startTape (n := 1) (a := 2) (m := 2) toyTape (fun _ => 3))).check (fun x =>
      (authgen x.1.1 x.1.2 ['A'] (authTape (a := 2) (m := 2) (n := 1) toyTape (fun _ => 3) 0)).check fun a =>
      (authgen x.1.1 x.1.2 ['B'] (authTape (a := 2) (m := 2) (n := 1) toyTape (fun _ => 3) 1)).check fun b =>
      (requestAttributePk toyEnv x.1.1 a.1 (chars% "A::a")).check fun k =>
      (requestAttributePk toyEnv x.1.1 b.1 (chars% "B::b")).check fun l =>
      (keygen x.1.1 a.1 ['u'] (toyTape.setFr 0 3)).check fun u =>
      (keygen x.1.1 b.1 ['v'] (toyTape.setFr 0 3)).check fun v =>
      (requestAttributeSk toyEnv u.1.pk a.1 (chars% "A::a")).check fun ku =>
      (requestAttributeSk toyEnv v.1.pk b.1 (chars% "B::b")).check fun kv =>
      (encrypt toyEnv x.1.1 [k, l] caseJob.text caseJob.lang caseJob.plain
        (encTape (a := 2) (m := 2) (n := 1) toyTape caseJob.tape fun _ => 3)).check fun y =>
      (encrypt toyEnv x.1.1 [k, l] caseJob.text caseJob.lang caseJob.plain caseJob.tape).check fun z => true) = true := by
    decide +kernel
  simp only [Res.check_iff] at h
  obtain ⟨⟨⟨pk, msk⟩, t'⟩, h1, ⟨a, wa⟩, ha, ⟨b, wb⟩, hb, k, hk, l, hl, ⟨u, wu⟩, hu, ⟨v, wv⟩, hv, ku, hku, kv, hkv, ⟨ct, w⟩, h2,
    ⟨c, w'⟩, h3, _⟩ := h
  refine ⟨_, pk, msk, t', ![a, b], [k, l], ![u, v], ![[ku], [kv]], ct, w, [c], h1, ?_, .cons hk (.cons hl .nil), ?_, ?_, h2,
    .cons ⟨w', h3⟩ .nil, rfl⟩
  · intro i; fin_cases i
    exacts [⟨wa, ha⟩, ⟨wb, hb⟩]
  · intro i; fin_cases i
    exacts [⟨wu, hu⟩, ⟨wv, hv⟩]
  · intro i; fin_cases i
    exacts [.cons hku .nil, .cons hkv .nil]

/-- A single user with both keys meets the condition of `C86_authorities_exact`. -/
example : ∃ c ∈ conjunctions toyEnv caseNames caseKeys caseJob.text caseJob.lang, ∃ v, ∀ i, c i ≠ 0 →
    ∃ r ∈ ((fun _ => ⟨0, ['u'], caseKeys⟩ : Fin 1 → Member 2) v).requests, r.1 = i ∧ weight toyEnv caseNames r ≠ 0 := by
  obtain ⟨c, hc⟩ := case_mem
  refine ⟨c, hc, 0, fun i _ => ?_⟩
  fin_cases i
  · exact ⟨_, List.mem_cons_self, rfl, by decide +kernel⟩
  · exact ⟨_, List.mem_cons_of_mem _ List.mem_cons_self, rfl, by decide +kernel⟩

end Bdabe
end Rabe
