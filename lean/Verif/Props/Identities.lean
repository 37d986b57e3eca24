import Verif.Props.Coalition
import Verif.Props.OneKey
import Verif.Proof.Lines
import Mathlib.LinearAlgebra.Pi

/-!
# C85: what AW11 users with different identities can open together

The random numbers of all authorities are varied, so that the keys of the users vary as well.
-/

set_option linter.unusedSectionVars false

namespace Rabe

variable {F G1 G2 Gt : Type} [Field F] [DecidableEq F] [AddCommGroup G1] [Module F G1]
  [AddCommGroup G2] [Module F G2] [AddCommGroup Gt] [Module F Gt]

/-- `∑ e(u i, l[i])`, the positions counted from `n`. -/
def pairUp (env : Env F G1 G2 Gt) (u : ℕ → G1) : ℕ → List G2 → Gt
  | _, [] => 0
  | n, x :: l => env.pair (u n) x + pairUp env u (n + 1) l

theorem pairUp_append (env : Env F G1 G2 Gt) (u : ℕ → G1) : ∀ (n : ℕ) (l m : List G2),
    pairUp env u n (l ++ m) = pairUp env u n l + pairUp env u (n + l.length) m
  | n, [], m => by simp [pairUp]
  | n, x :: l, m => by
    simp only [List.cons_append, pairUp, pairUp_append env u (n + 1) l m, List.length_cons]
    rw [show n + 1 + l.length = n + (l.length + 1) by omega, add_assoc]

theorem pairUp_eq_sum {α : Type} (env : Env F G1 G2 Gt) (u : ℕ → G1) (g : α → G2) : ∀ (n : ℕ) (l : List α),
    pairUp env u n (l.map g) = ∑ i : Fin l.length, env.pair (u (n + i)) (g l[i])
  | _, [] => by simp [pairUp]
  | n, x :: l => by
    rw [List.map_cons, pairUp, pairUp_eq_sum env u g (n + 1) l]
    simp only [List.length_cons, Fin.sum_univ_succ]
    congr 1
    refine Finset.sum_congr rfl fun i _ => ?_
    simp only [Fin.val_succ, Fin.getElem_fin, List.getElem_cons_succ]
    rw [show n + 1 + i.1 = n + (i.1 + 1) by omega]

theorem weigh_eq_sum {α M : Type} [AddCommGroup M] [Module F M] (f : ℕ → F) (g : α → M) : ∀ (n : ℕ) (l : List α),
    weigh f n (l.map g) = ∑ i : Fin l.length, f (n + i) • g l[i]
  | _, [] => by simp [weigh]
  | n, x :: l => by
    rw [List.map_cons, weigh, weigh_eq_sum f g (n + 1) l]
    simp only [List.length_cons, Fin.sum_univ_succ]
    congr 1
    refine Finset.sum_congr rfl fun i _ => ?_
    simp only [Fin.val_succ, Fin.getElem_fin, List.getElem_cons_succ]
    rw [show n + 1 + i.1 = n + (i.1 + 1) by omega]

/-- The value of a computation, sorted by the elements of `G2`. -/
theorem eval_pairUp (env : Env F G1 G2 Gt) (k : Formula F) (v : View G1 G2 Gt) :
    k.eval env v = pairUp env (fun j => weigh (fun i => k.pairs i j) 0 v.one) 0 v.two + weigh k.tgt 0 v.tgt := by
  rw [Formula.eval]
  congr 1
  have key : ∀ (l : List G1) (n : ℕ) (m : List G2) (n' : ℕ),
      ((l.zipIdx n).map fun x => ((m.zipIdx n').map fun y => k.pairs x.2 y.2 • env.pair x.1 y.1).sum).sum =
      pairUp env (fun j => weigh (fun i => k.pairs i j) n l) n' m := by
    intro l
    induction l with
    | nil =>
      intro n m
      induction m with
      | nil => intro n'; rfl
      | cons y m ih => intro n'; simp only [pairUp, ← ih]; simp [weigh]
    | cons x l ih =>
      intro n m n'
      rw [List.zipIdx_cons, List.map_cons, List.sum_cons, ih]
      induction m generalizing n' with
      | nil => simp [pairUp]
      | cons y m ih' =>
        simp only [List.zipIdx_cons, List.map_cons, List.sum_cons, pairUp, weigh, map_add, LinearMap.add_apply, map_smul,
          LinearMap.smul_apply]
        simp only [weigh] at ih'
        rw [← ih' (n' + 1)]
        abel
  exact key v.one 0 v.two 0

theorem forall₂_mem {α β : Type} {R : α → β → Prop} : ∀ {l : List α} {m : List β}, List.Forall₂ R l m →
    List.Forall₂ (fun a b => a ∈ l ∧ R a b) l m
  | _, _, .nil => .nil
  | _, _, .cons r t => .cons ⟨by simp, r⟩ ((forall₂_mem t).imp fun _ _ h => ⟨by simp [h.1], h.2⟩)

namespace Aw11

/-- The authorities with other random numbers: number `j` of authority `q` is `z q j`. -/
def redraw {M K : ℕ} (auths : List (AuthJob F G1 G2 Gt)) (z : Fin M → Fin K → F) : List (AuthJob F G1 G2 Gt) :=
  auths.zipIdx.map fun A => if h : A.2 < M then ⟨A.1.attrs, A.1.tape.setFirst (z ⟨A.2, h⟩)⟩ else A.1

/-- The computation `k` finds the session element of the ciphertext made by `job` from the keys of all `holders`, the
public keys, the ciphertext, the ciphertexts `others` and the elements `extra`. The varied values are the first `K`
random numbers of each of the first `M` authorities, the first `n` random numbers of the encryption and the session
element. -/
def OpenedByUsers (cm : CaseMap) (env : Env F G1 G2 Gt) (k : Formula F) (t : Tape F G1 G2 Gt)
    (auths : List (AuthJob F G1 G2 Gt)) (holders : List Holder) (job : CpJob F G1 G2 Gt)
    (others : List (CpJob F G1 G2 Gt)) (extra : View G1 G2 Gt) {M K n : ℕ}
    (x : (Fin M → Fin K → F) × (Fin n → F) × Gt) : Prop :=
  ∃ gk t' keys sks ct u cts, setup t = .ok (gk, t') ∧
    List.Forall₂ (fun A key => ∃ u, authgen cm env gk A.attrs A.tape = .ok (some key, u)) (redraw auths x.1) keys ∧
    List.Forall₂ (fun h sk => issue cm env gk (keys.map (·.2)) h = .ok sk) holders sks ∧
    encrypt cm env gk (keys.map (·.1)) job.text job.lang job.plain ((job.tape.setFirst x.2.1).setGt x.2.2) = .ok (ct, u) ∧
    List.Forall₂ (fun o c => ∃ u, encrypt cm env gk (keys.map (·.1)) o.text o.lang o.plain o.tape = .ok (c, u)) others cts ∧
    k.eval env (View.all (extra.join (View.all (sks.map SecretKey.seen)) :: gk.seen ::
      View.all (keys.map fun key => key.1.seen) :: ct.seen :: cts.map Ciphertext.seen)) = x.2.2

/-- Random number `j` of authority `q`. -/
def coord {M K : ℕ} (q j : ℕ) : (Fin M → Fin K → F) →ₗ[F] F :=
  if h : q < M ∧ j < K then
    { toFun := fun z => z ⟨q, h.1⟩ ⟨j, h.2⟩, map_add' := fun _ _ => rfl, map_smul' := fun _ _ => rfl }
  else 0

theorem coord_apply {M K : ℕ} (q j : ℕ) (z : Fin M → Fin K → F) :
    coord q j z = if h : q < M ∧ j < K then z ⟨q, h.1⟩ ⟨j, h.2⟩ else 0 := by
  unfold coord
  split <;> rfl

/-- The first secret of an attribute. -/
def al {M K : ℕ} (p : ℕ × ℕ) : (Fin M → Fin K → F) →ₗ[F] F := coord p.1 (2 * p.2)

/-- The second secret of an attribute. -/
def ye {M K : ℕ} (p : ℕ × ℕ) : (Fin M → Fin K → F) →ₗ[F] F := coord p.1 (2 * p.2 + 1)

/-- The public keys, with the place of an attribute instead of its group elements. -/
def places (cm : CaseMap) (auths : List (AuthJob F G1 G2 Gt)) : List (PublicKey (ℕ × ℕ) (ℕ × ℕ)) :=
  auths.zipIdx.map fun A => ⟨A.1.attrs.zipIdx.map fun x => ⟨cm.upper x.1, (A.2, x.2), (A.2, x.2)⟩⟩

/-- The place of the attribute that answers a request, as `add_to_attribute` looks it up
(`/repo/src/schemes/aw11/mod.rs:216-221`). -/
def place (cm : CaseMap) (auths : List (AuthJob F G1 G2 Gt)) (r : ℕ × Str) : Option (ℕ × ℕ) :=
  auths[r.1]?.bind fun A => (A.attrs.zipIdx.find? fun x => cm.upper x.1 == r.2).map fun x => (r.1, x.2)

theorem redraw_pks {M K : ℕ} {cm : CaseMap} {env : Env F G1 G2 Gt} {gk : GlobalKey G1 G2}
    {auths : List (AuthJob F G1 G2 Gt)} (hM : auths.length ≤ M) (hK : ∀ A ∈ auths, 2 * A.attrs.length ≤ K)
    {z : Fin M → Fin K → F} {keys : List (PublicKey G2 Gt × MasterKey F)}
    (h : List.Forall₂ (fun A key => ∃ u, authgen cm env gk A.attrs A.tape = .ok (some key, u)) (redraw auths z) keys) :
    keys.map (·.1) = (places cm auths).map (PublicKey.map (fun p => ye p z • gk.g2) (fun p => al p z • env.pair gk.g1 gk.g2)) := by
  have h := pks_forall₂ h
  rw [redraw, List.forall₂_map_left_iff] at h
  rw [places, List.map_map]
  refine forall₂_eq_map ?_ (forall₂_mem h)
  rintro ⟨A, q⟩ pk ⟨hmem, msk, u, h⟩
  have hA := (List.mem_zipIdx_iff_getElem? (x := (A, q))).1 hmem
  have hq : q < M := lt_of_lt_of_le (List.getElem?_eq_some_iff.1 hA).1 hM
  simp only [hq, dif_pos] at h
  have := authgen_attr h
  obtain ⟨l⟩ := pk
  replace this : l = _ := this
  simp only [PublicKey.map, Function.comp_def, List.map_map, PublicKey.mk.injEq]
  rw [this]
  apply List.map_congr_left
  intro x hx
  have hx := (List.mem_zipIdx hx).2.1
  have hK := hK A (List.mem_of_getElem? hA)
  have e1 : 2 * x.2 < K := by omega
  have e2 : 2 * x.2 + 1 < K := by omega
  simp [al, ye, coord_apply, hq, e1, e2, Tape.setFirst]

theorem place_spec {cm : CaseMap} {auths : List (AuthJob F G1 G2 Gt)} {r p} (h : place cm auths r = some p) :
    ∃ A, auths[p.1]? = some A ∧ ∃ m, A.attrs[p.2]? = some m ∧ cm.upper m = r.2 := by
  unfold place at h
  cases hA : auths[r.1]? with
  | none => simp [hA] at h
  | some A =>
    rw [hA, Option.bind_some] at h
    cases hx : A.attrs.zipIdx.find? (fun x => cm.upper x.1 == r.2) with
    | none => simp [hx] at h
    | some x =>
      rw [hx, Option.map_some, Option.some.injEq] at h
      subst h
      exact ⟨A, hA, x.1, (List.mem_zipIdx_iff_getElem? (x := x)).1 (List.mem_of_find?_eq_some hx),
        by simpa using List.find?_some hx⟩

theorem request_place {M K : ℕ} {cm : CaseMap} {env : Env F G1 G2 Gt} {gk : GlobalKey G1 G2}
    {auths : List (AuthJob F G1 G2 Gt)} (hM : auths.length ≤ M) (hK : ∀ A ∈ auths, 2 * A.attrs.length ≤ K)
    {z : Fin M → Fin K → F} {r : ℕ × Str} {s s' : SecretKey G1}
    (h : (do let msk ← Res.index ((redraw auths z).map (mskOf cm)) r.1; addToAttribute cm env gk msk r.2 s) = .ok s') :
    ∃ p, place cm auths r = some p ∧ s'.gid = s.gid ∧
      s'.attr.map (·.2) = s.attr.map (·.2) ++ [(al p z + env.hash s.gid * ye p z) • gk.g1] := by
  simp only [Res.index, redraw, List.getElem?_map, List.getElem?_zipIdx, Option.map_map] at h
  cases hA : auths[r.1]? with
  | none => simp [hA] at h
  | some A =>
    have hq : r.1 < M := lt_of_lt_of_le (List.getElem?_eq_some_iff.1 hA).1 hM
    simp only [hA, Option.map_some, Function.comp_def, zero_add, Res.unwrapOption_some, Res.ok_bind, hq, dif_pos,
      addToAttribute, mskOf, List.find?_map] at h
    split at h
    · simp at h
    split at h
    · simp at h
    cases hx : A.attrs.zipIdx.find? (fun x => cm.upper x.1 == r.2) with
    | none => simp [hx] at h
    | some x =>
      simp only [hx, Option.map_some, Res.unwrapOption_some, Res.ok_bind, Res.ok.injEq] at h
      subst h
      refine ⟨(r.1, x.2), by simp [place, hA, hx], rfl, ?_⟩
      have hx' := (List.mem_zipIdx (List.mem_of_find?_eq_some hx)).2.1
      have hK := hK A (List.mem_of_getElem? hA)
      have e1 : 2 * x.2 < K := by omega
      have e2 : 2 * x.2 + 1 < K := by omega
      simp only [List.map_append, List.map_cons, List.map_nil, al, ye, coord_apply, hq, e1, e2, and_self, dif_pos,
        Tape.setFirst, Env.sha3Hash]
      congr 2
      module

theorem issue_place {M K : ℕ} {cm : CaseMap} {env : Env F G1 G2 Gt} {gk : GlobalKey G1 G2}
    {auths : List (AuthJob F G1 G2 Gt)} (hM : auths.length ≤ M) (hK : ∀ A ∈ auths, 2 * A.attrs.length ≤ K)
    {z : Fin M → Fin K → F} {h : Holder} {sk : SecretKey G1}
    (hi : issue cm env gk ((redraw auths z).map (mskOf cm)) h = .ok sk) :
    sk.attr.map (·.2) = (h.requests.filterMap (place cm auths)).map fun p =>
      (al p z + env.hash h.gid * ye p z) • gk.g1 := by
  obtain ⟨gid, reqs⟩ := h
  unfold issue at hi
  have key : ∀ (reqs : List (ℕ × Str)) (s : SecretKey G1), s.gid = gid →
      Res.foldR (fun sk (r : ℕ × Str) => do
        let msk ← Res.index ((redraw auths z).map (mskOf cm)) r.1
        addToAttribute cm env gk msk r.2 sk) s reqs = .ok sk →
      sk.attr.map (·.2) = s.attr.map (·.2) ++ (reqs.filterMap (place cm auths)).map fun p =>
        (al p z + env.hash gid * ye p z) • gk.g1 := by
    intro reqs
    induction reqs with
    | nil => intro s _ h; rw [Res.ok.inj h]; simp
    | cons r reqs ih =>
      intro s hg h
      simp only [Res.foldR, Res.rbind_eq] at h
      rw [Res.bind_eq_ok] at h
      obtain ⟨s', h1, h2⟩ := h
      obtain ⟨p, hp, hg', ha⟩ := request_place hM hK h1
      rw [ih s' (hg'.trans hg) h2, ha, List.filterMap_cons_some hp, hg]
      simp
  simpa using key reqs ⟨gid, []⟩ rfl hi

/-- All components of all keys: the place of the attribute and the hash of the identity. -/
def components (cm : CaseMap) (env : Env F G1 G2 Gt) (auths : List (AuthJob F G1 G2 Gt)) (holders : List Holder) :
    List ((ℕ × ℕ) × F) :=
  holders.flatMap fun h => (h.requests.filterMap (place cm auths)).map fun p => (p, env.hash h.gid)

theorem keys_one {M K : ℕ} {cm : CaseMap} {env : Env F G1 G2 Gt} {gk : GlobalKey G1 G2}
    {auths : List (AuthJob F G1 G2 Gt)} (hM : auths.length ≤ M) (hK : ∀ A ∈ auths, 2 * A.attrs.length ≤ K)
    {z : Fin M → Fin K → F} : ∀ {holders : List Holder} {sks : List (SecretKey G1)},
    List.Forall₂ (fun h sk => issue cm env gk ((redraw auths z).map (mskOf cm)) h = .ok sk) holders sks →
    (View.all (sks.map (SecretKey.seen (G2 := G2) (Gt := Gt)))).one =
      (components cm env auths holders).map fun x => (al x.1 z + x.2 * ye x.1 z) • gk.g1
  | _, _, .nil => rfl
  | _, _, .cons h t => by
    have ih := keys_one hM hK t
    simp only [List.map_cons, View.all, View.join, SecretKey.seen, issue_place hM hK h, components, List.flatMap_cons,
      List.map_append, List.map_map, Function.comp_def] at ih ⊢
    rw [ih]

theorem components_spec {cm : CaseMap} {env : Env F G1 G2 Gt} {auths : List (AuthJob F G1 G2 Gt)} {holders : List Holder}
    {x : (ℕ × ℕ) × F} (hx : x ∈ components cm env auths holders) :
    ∃ h ∈ holders, ∃ r ∈ h.requests, place cm auths r = some x.1 ∧ x.2 = env.hash h.gid := by
  simp only [components, List.mem_flatMap, List.mem_map, List.mem_filterMap] at hx
  obtain ⟨h, hh, p, ⟨r, hr, hp⟩, rfl⟩ := hx
  exact ⟨h, hh, r, hr, hp, rfl⟩

theorem findPkAttr_places {cm : CaseMap} {auths : List (AuthJob F G1 G2 Gt)} {nm : Str} {a : PubAttr (ℕ × ℕ) (ℕ × ℕ)}
    (h : findPkAttr nm (places cm auths) = some a) : a.name = nm ∧ a.y = a.e ∧
      ∃ A, auths[a.e.1]? = some A ∧ ∃ m, A.attrs[a.e.2]? = some m ∧ cm.upper m = nm := by
  have hmem : ∀ (pks : List (PublicKey (ℕ × ℕ) (ℕ × ℕ))), findPkAttr nm pks = some a →
      a.name = nm ∧ ∃ pk ∈ pks, a ∈ pk.attr := by
    intro pks
    induction pks with
    | nil => simp [findPkAttr]
    | cons pk pks ih =>
      simp only [findPkAttr]
      cases hf : pk.attr.find? (fun a => a.name == nm) with
      | some b =>
        intro h
        simp only [Option.some.injEq] at h
        subst h
        exact ⟨by simpa using List.find?_some hf, pk, by simp, List.mem_of_find?_eq_some hf⟩
      | none =>
        intro h
        obtain ⟨h1, pk', h2, h3⟩ := ih h
        exact ⟨h1, pk', by simp [h2], h3⟩
  obtain ⟨h1, pk, h2, h3⟩ := hmem _ h
  simp only [places, List.mem_map] at h2
  obtain ⟨⟨A, q⟩, hA, rfl⟩ := h2
  simp only [List.mem_map] at h3
  obtain ⟨⟨m, j⟩, hm, rfl⟩ := h3
  exact ⟨h1, rfl, A, (List.mem_zipIdx_iff_getElem? (x := (A, q))).1 hA, m,
    (List.mem_zipIdx_iff_getElem? (x := (m, j))).1 hm, h1⟩

/-- A component of the ciphertext and its leaf. -/
theorem found_places {cm : CaseMap} {auths : List (AuthJob F G1 G2 Gt)} {p : Pol} {y : PubAttr (ℕ × ℕ) (ℕ × ℕ) × ℕ}
    (hy : y ∈ found cm (places cm auths) (p.leaves.map leafIdx) 0) :
    ∃ l, p.leaves[y.2]? = some l ∧ findPkAttr (removeIndex (cm.upper l.1)) (places cm auths) = some y.1 := by
  simp only [found, List.mem_filterMap] at hy
  obtain ⟨⟨x, i⟩, hx, hy⟩ := hy
  have hx' := (List.mem_zipIdx_iff_getElem? (x := (x, i))).1 hx
  simp only [List.getElem?_map] at hx'
  cases hl : p.leaves[i]? with
  | none => simp [hl] at hx'
  | some l =>
    rw [hl, Option.map_some, Option.some.injEq] at hx'
    subst hx'
    rw [removeIndex_upper_leaf] at hy
    cases hf : findPkAttr (removeIndex (cm.upper l.1)) (places cm auths) with
    | none => simp [hf] at hy
    | some a =>
      simp only [hf, Option.map_some, Option.some.injEq] at hy
      subst hy
      exact ⟨l, hl, hf⟩

/-- The view of a ciphertext. -/
theorem ct_view {A B : Type} {cm : CaseMap} {env : Env F G1 G2 Gt} {gk : GlobalKey G1 G2} {fk : List (PublicKey A B)}
    {fy : A → F} {fe : B → F} {text : Str} {lang : PolicyLanguage} {m : Bytes} {t t' : Tape F G1 G2 Gt}
    {ct : Ciphertext G2 Gt} {p : Pol} (hp : parse text lang = .ok p.toValue)
    (h : encrypt cm env gk (fk.map (PublicKey.map (fun a => fy a • gk.g2) (fun e => fe e • env.pair gk.g1 gk.g2)))
      text lang m t = .ok (ct, t')) :
    (ct.seen : View G1 G2 Gt) = ⟨[],
      (found cm fk (p.leaves.map leafIdx) 0).map (fun y => t.fr (1 + draws p + draws p + y.2) • gk.g2) ++
      (found cm fk (p.leaves.map leafIdx) 0).map (fun y => t.fr (1 + draws p + draws p + y.2) • fy y.1.y • gk.g2 +
        shareAt p 0 (dropS (1 + draws p) t.fr) y.2 • gk.g2),
      (t.gt 0 + t.fr 0 • env.pair gk.g1 gk.g2) :: (found cm fk (p.leaves.map leafIdx) 0).map (fun y =>
        shareAt p (t.fr 0) (dropS 1 t.fr) y.2 • env.pair gk.g1 gk.g2 +
          t.fr (1 + draws p + draws p + y.2) • fe y.1.e • env.pair gk.g1 gk.g2)⟩ := by
  obtain ⟨h0, h⟩ := encrypt_seen hp h
  have e : found cm (fk.map (PublicKey.map (fun a => fy a • gk.g2) (fun e => fe e • env.pair gk.g1 gk.g2)))
      (p.leaves.map leafIdx) 0 = (found cm fk (p.leaves.map leafIdx) 0).map fun y =>
        (⟨y.1.name, fe y.1.e • env.pair gk.g1 gk.g2, fy y.1.y • gk.g2⟩, y.2) := by
    simp only [found, List.map_filterMap, findPkAttr_map, Option.map_map, Function.comp_def]
  rw [e, List.map_map] at h
  have g := fun {α : Type} (f : Gt × G2 × G2 → α) => congrArg (List.map f) h
  simp only [List.map_map, Function.comp_def] at g
  simp only [Ciphertext.seen, g fun x => x.1, g fun x => x.2.1, g fun x => x.2.2, h0]

theorem keys_length_two {A B : Type} (fy : A → G2) (fe : B → Gt) : ∀ fk : List (PublicKey A B),
    (View.all ((fk.map (PublicKey.map fy fe)).map (PublicKey.seen (G1 := G1)))).one = [] ∧
    (View.all ((fk.map (PublicKey.map fy fe)).map (PublicKey.seen (G1 := G1)))).two.length =
      (fk.flatMap fun pk => pk.attr.map fun b => b.e).length
  | [] => ⟨rfl, rfl⟩
  | pk :: fk => by
    obtain ⟨h1, h2⟩ := keys_length_two fy fe fk
    simp only [List.map_cons, View.all, View.join, List.length_append, h1, h2, List.flatMap_cons, PublicKey.seen,
      PublicKey.map, List.length_map, List.append_nil, true_and]

theorem cts_one (cts : List (Ciphertext G2 Gt)) : (View.all (cts.map (Ciphertext.seen (G1 := G1)))).one = [] := by
  induction cts with
  | nil => rfl
  | cons c cts ih => simp [View.all, View.join, Ciphertext.seen, ih]

/-! ## Shares as linear functions -/

theorem shareAt_lin (p : Pol) (c σ τ : F) (ω δ : ℕ → F) (i : ℕ) :
    shareAt p (σ + c * τ) (fun i => ω i + c * δ i) i = shareAt p σ ω i + c * shareAt p τ δ i := by
  simp only [shareAt_eq, shareVals_lin, List.getElem?_zipWith]
  have h1 := shareVals_length p σ ω
  have h2 := shareVals_length p τ δ
  by_cases h : i < p.leaves.length
  · rw [List.getElem?_eq_getElem (by omega), List.getElem?_eq_getElem (by omega)]
    simp
  · rw [List.getElem?_eq_none (by omega), List.getElem?_eq_none (by omega)]
    simp

theorem shareAt_zero (p : Pol) (i : ℕ) : shareAt p (0 : F) (fun _ => 0) i = 0 := by
  have := shareAt_lin p (1 : F) 0 0 (fun _ => 0) (fun _ => 0) i
  simp only [mul_zero, add_zero, one_mul] at this
  exact left_eq_add.1 this

theorem shareAt_congr (p : Pol) (σ : F) {ω ω' : ℕ → F} (h : ∀ i < draws p, ω i = ω' i) (i : ℕ) :
    shareAt p σ ω i = shareAt p σ ω' i := by
  rw [shareAt_eq, shareAt_eq, shareVals_congr p σ h]

/-- The random numbers of the encryption as a stream. -/
def strm {n : ℕ} (f : Fin n → F) (i : ℕ) : F := if h : i < n then f ⟨i, h⟩ else 0

/-- A function that respects linear combinations. -/
def linOf {n : ℕ} (g : (Fin n → F) → F) (h : ∀ c f f', g (f + c • f') = g f + c * g f') : (Fin n → F) →ₗ[F] F where
  toFun := g
  map_add' f f' := by simpa using h 1 f f'
  map_smul' c f := by
    have h0 : g 0 = 0 := by simpa using h 1 0 0
    simpa [h0] using h c 0 f

theorem strm_lin {n : ℕ} (f f' : Fin n → F) (c : F) (i : ℕ) : strm (f + c • f') i = strm f i + c * strm f' i := by
  simp only [strm]
  split <;> simp

/-- The view of a ciphertext whose first random numbers are `f`. -/
theorem ct_strm {cm : CaseMap} {env : Env F G1 G2 Gt} {g1 : G1} {g2 : G2} {auths : List (AuthJob F G1 G2 Gt)} {M K n : ℕ}
    {z : Fin M → Fin K → F} {text : Str} {lang : PolicyLanguage} {plain : Bytes} {t u : Tape F G1 G2 Gt}
    {f : Fin n → F} {m : Gt} {ct : Ciphertext G2 Gt} {p : Pol} (hp : parse text lang = .ok p.toValue)
    (hn : 1 + draws p + draws p + p.leaves.length ≤ n)
    (he : encrypt cm env ⟨g1, g2⟩ ((places cm auths).map
      (PublicKey.map (fun p => ye p z • g2) (fun p => al p z • env.pair g1 g2))) text lang plain
      ((t.setFirst f).setGt m) = .ok (ct, u)) :
    (ct.seen : View G1 G2 Gt) = ⟨[],
      (found cm (places cm auths) (p.leaves.map leafIdx) 0).map (fun y => strm f (1 + draws p + draws p + y.2) • g2) ++
      (found cm (places cm auths) (p.leaves.map leafIdx) 0).map (fun y =>
        (strm f (1 + draws p + draws p + y.2) * ye y.1.e z + shareAt p 0 (dropS (1 + draws p) (strm f)) y.2) • g2),
      (m + strm f 0 • env.pair g1 g2) :: (found cm (places cm auths) (p.leaves.map leafIdx) 0).map (fun y =>
        (shareAt p (strm f 0) (dropS 1 (strm f)) y.2 + strm f (1 + draws p + draws p + y.2) * al y.1.e z) •
          env.pair g1 g2)⟩ := by
  have hfr : ∀ i < n, ((t.setFirst f).setGt m).fr i = strm f i := by
    intro i hi
    rw [fr_setFirst _ _ _ _ hi, strm, dif_pos hi]
  have hR' : ∀ y ∈ found cm (places cm auths) (p.leaves.map leafIdx) 0, y.2 < p.leaves.length ∧ y.1.y = y.1.e := by
    intro y hy
    obtain ⟨l, hl, hf⟩ := found_places hy
    exact ⟨(List.getElem?_eq_some_iff.1 hl).1, (findPkAttr_places hf).2.1⟩
  rw [ct_view (gk := ⟨g1, g2⟩) hp he]
  simp only [View.mk.injEq, true_and, List.cons.injEq, hfr 0 (by omega)]
  refine ⟨?_, by simp [Tape.setGt], ?_⟩
  · congr 1
    · refine List.map_congr_left fun y hy => ?_
      have := (hR' y hy).1
      rw [hfr _ (by omega)]
    · refine List.map_congr_left fun y hy => ?_
      have := (hR' y hy).1
      rw [hfr _ (by omega), (hR' y hy).2, shareAt_congr p 0 (ω' := dropS (1 + draws p) (strm f))]
      · module
      · intro i hi
        simp only [dropS]
        rw [hfr _ (by omega)]
  · refine List.map_congr_left fun y hy => ?_
    have := (hR' y hy).1
    rw [hfr _ (by omega), shareAt_congr p _ (ω' := dropS 1 (strm f))]
    · module
    · intro i hi
      simp only [dropS]
      rw [hfr _ (by omega)]

/-- The share of the secret at leaf `i`, in the random numbers of the encryption. -/
def shareMap (n : ℕ) (p : Pol) (i : ℕ) : (Fin n → F) →ₗ[F] F :=
  linOf (fun f => shareAt p (strm f 0) (dropS 1 (strm f)) i) (fun c f f' => by
    rw [← shareAt_lin]; simp only [strm_lin]; congr 1; funext i; simp only [dropS, strm_lin])

/-- The share of zero at leaf `i`, in the random numbers of the encryption. -/
def zeroMap (n : ℕ) (p : Pol) (i : ℕ) : (Fin n → F) →ₗ[F] F :=
  linOf (fun f => shareAt p 0 (dropS (1 + draws p) (strm f)) i) (fun c f f' => by
    rw [← shareAt_lin]; simp only [mul_zero, add_zero]; congr 1; funext i; simp only [dropS, strm_lin])

/-- Random number `i` of the encryption. -/
def strmMap (n i : ℕ) : (Fin n → F) →ₗ[F] F := linOf (fun f => strm f i) (fun _ _ _ => strm_lin _ _ _ _)

/-- There is a change of the random numbers of an encryption that changes the secret by one and that no component of a
key notices: for every holder `h` and leaf `i` whose public key belongs to an attribute in the key of `h`, the share of the
secret and the share of zero times the hash of the identity cancel. (A condition on the policy, the names and the hashes
of the identities.) -/
def Hidden (cm : CaseMap) (env : Env F G1 G2 Gt) (auths : List (AuthJob F G1 G2 Gt)) (p : Pol) (holders : List Holder) :
    Prop :=
  ∃ δ δ' : ℕ → F, ∀ h ∈ holders, ∀ r ∈ h.requests, ∀ i l a, p.leaves[i]? = some l →
    findPkAttr (removeIndex (cm.upper l.1)) (places cm auths) = some a → place cm auths r = some a.e →
    shareAt p 1 δ i + env.hash h.gid * shareAt p 0 δ' i = 0

theorem pair_left (env : Env F G1 G2 Gt) (gk : GlobalKey G1 G2) (f : ℕ → F) (e : List G1) (res : List ((ℕ × ℕ) × F))
    (v : (ℕ × ℕ) × F → F) :
    env.pair (weigh f 0 (e ++ (res.map (fun x => v x • gk.g1) ++ [gk.g1]))) gk.g2 =
      env.pair (weigh f 0 e + f (e.length + res.length) • gk.g1) gk.g2 +
        (∑ i : Fin res.length, f (e.length + i) * v res[i]) • env.pair gk.g1 gk.g2 := by
  rw [weigh_append, weigh_append, weigh_eq_sum]
  simp only [weigh, map_add, LinearMap.add_apply, map_smul, LinearMap.smul_apply, map_sum, LinearMap.coe_sum,
    Finset.sum_apply, List.length_map, zero_add, add_zero, Finset.sum_smul, mul_smul]
  abel

set_option maxHeartbeats 1000000 in
open Classical in
/-- **C85, the general bound.** Any number of users, with any keys. If some change of the random numbers is hidden from all
their components, a fixed computation finds the session element for at most `3/q` of all choices of the secrets of the
authorities, the random numbers of the encryption and the session element. -/
theorem C85_hidden [BigChar F] [Fintype F] [Fintype Gt] (cm : CaseMap) (env : Env F G1 G2 Gt) (k : Formula F)
    (t : Tape F G1 G2 Gt) (hpair : env.pair (t.g1 0) (t.g2 0) ≠ 0) (auths : List (AuthJob F G1 G2 Gt)) (M K : ℕ)
    (hM : auths.length ≤ M) (hK : ∀ A ∈ auths, 2 * A.attrs.length ≤ K)
    (holders : List Holder) (job : CpJob F G1 G2 Gt) (p : Pol) (hp : Denotes job.text job.lang p)
    (hid : Hidden cm env auths p holders)
    (others : List (CpJob F G1 G2 Gt)) (extra : View G1 G2 Gt) (n : ℕ)
    (hn : 1 + draws p + draws p + p.leaves.length ≤ n) :
    (Finset.univ.filter (OpenedByUsers cm env k t auths holders job others extra (M := M) (K := K) (n := n))).card *
      Fintype.card F ≤ 3 * Fintype.card ((Fin M → Fin K → F) × (Fin n → F) × Gt) := by
  have h2 : (2 : F) ≠ 0 := by
    exact_mod_cast BigChar.cast_ne_zero (F := F) 2 (by norm_num) (by norm_num)
  set E := env.pair (t.g1 0) (t.g2 0) with hE
  set fk := places cm auths with hfk
  set R := found cm fk (p.leaves.map leafIdx) 0 with hR
  set res := components cm env auths holders with hres
  set LL := (fk.flatMap fun pk => pk.attr.map fun b => b.e).length with hLL
  set N := extra.tgt.length + LL with hN
  set N2 := extra.two.length + 1 + LL with hN2
  have hRl : ∀ j : Fin R.length, R[j].2 < p.leaves.length := by
    intro j
    obtain ⟨l, hl, -⟩ := found_places (List.getElem_mem j.2)
    exact (List.getElem?_eq_some_iff.1 hl).1
  have hRinj : ∀ i j : Fin R.length, R[i].2 = R[j].2 → i = j := by
    intro i j e
    have hn := nodup_found cm fk (p.leaves.map leafIdx) 0
    rw [← hR] at hn
    have := (List.Nodup.getElem_inj_iff hn (i := i.1) (j := j.1) (hi := by simp) (hj := by simp)).1 (by simpa using e)
    exact Fin.ext this
  let U : (Fin M → Fin K → F) → ℕ → Gt := fun z j =>
    env.pair (weigh (fun i => k.pairs i j) 0 extra.one + k.pairs (extra.one.length + res.length) j • t.g1 0) (t.g2 0) +
      (∑ i : Fin res.length, k.pairs (extra.one.length + i) j * (al res[i].1 z + res[i].2 * ye res[i].1 z)) • E
  let lam : Fin R.length → (Fin n → F) →ₗ[F] F := fun j => shareMap n p R[j].2
  let w : Fin R.length → (Fin n → F) →ₗ[F] F := fun j => zeroMap n p R[j].2
  let r : Fin R.length → (Fin n → F) →ₗ[F] F := fun j => strmMap n (1 + draws p + draws p + R[j].2)
  let σ : (Fin n → F) →ₗ[F] F := strmMap n 0
  refine count_users (P := ℕ × ℕ) (J := R.length) (L := res.length) h2 E hpair al ye (fun j => R[j].1.e)
    (fun i => res[i].1) (fun i => res[i].2) ?unit (fun j => k.tgt (N + 1 + j))
    (fun j i => k.pairs (extra.one.length + i) (N2 + j)) (fun j i => k.pairs (extra.one.length + i) (N2 + R.length + j))
    (fun j => env.pair (weigh (fun i => k.pairs i (N2 + j)) 0 extra.one +
      k.pairs (extra.one.length + res.length) (N2 + j) • t.g1 0) (t.g2 0))
    (fun j => env.pair (weigh (fun i => k.pairs i (N2 + R.length + j)) 0 extra.one +
      k.pairs (extra.one.length + res.length) (N2 + R.length + j) • t.g1 0) (t.g2 0))
    (fun j z => U z (N2 + R.length + j))
    (fun j z => (k.tgt (N + 1 + j) * al R[j].1.e z) • E + U z (N2 + j) + ye R[j].1.e z • U z (N2 + R.length + j))
    (fun j z => rfl) (fun j z => rfl) σ lam w r ?dirs ?hidden (k.tgt N) _ ?main
  case unit =>
    intro j
    obtain ⟨l, hl, hf⟩ := found_places (List.getElem_mem j.2)
    obtain ⟨-, -, A, hA, m, hm, -⟩ := findPkAttr_places hf
    have b1 : R[j].1.e.1 < M := lt_of_lt_of_le (List.getElem?_eq_some_iff.1 hA).1 hM
    have b2 := hK A (List.mem_of_getElem? hA)
    have b3 : R[j].1.e.2 < A.attrs.length := (List.getElem?_eq_some_iff.1 hm).1
    refine ⟨fun q i => if q.1 = R[j].1.e.1 ∧ i.1 = 2 * R[j].1.e.2 then 1 else 0,
      fun q i => if q.1 = R[j].1.e.1 ∧ i.1 = 2 * R[j].1.e.2 + 1 then 1 else 0, ?_⟩
    rintro ⟨q, i⟩
    generalize hpos : R[j].1.e = pos at *
    obtain ⟨q', i'⟩ := pos
    simp only [al, ye, coord_apply, Prod.mk.injEq] at *
    refine ⟨?_, ?_, ?_, ?_⟩
    · by_cases h : q = q' ∧ i = i'
      · obtain ⟨rfl, rfl⟩ := h
        rw [dif_pos ⟨b1, by omega⟩]; simp
      · rw [if_neg h]
        split
        · rw [if_neg]; omega
        · rfl
    · split
      · rw [if_neg]; omega
      · rfl
    · split
      · rw [if_neg]; omega
      · rfl
    · by_cases h : q = q' ∧ i = i'
      · obtain ⟨rfl, rfl⟩ := h
        rw [dif_pos ⟨b1, by omega⟩]; simp
      · rw [if_neg h]
        split
        · rw [if_neg]; omega
        · rfl
  case dirs =>
    intro j
    have hj := hRl j
    have hlt : 1 + draws p + draws p + R[j].2 < n := by omega
    let d : Fin n → F := fun i => if i.1 = 1 + draws p + draws p + R[j].2 then 1 else 0
    have hd : ∀ i, strm d i = if i = 1 + draws p + draws p + R[j].2 then 1 else 0 := by
      intro i
      simp only [strm, d]
      split
      · rfl
      · rw [if_neg]; omega
    refine ⟨d, ?_, fun i => ⟨?_, ?_, ?_⟩⟩
    · change strm d 0 = 0
      rw [hd, if_neg]; omega
    · change shareAt p (strm d 0) (dropS 1 (strm d)) R[i].2 = 0
      rw [hd, if_neg (by omega), shareAt_congr p 0 (ω' := fun _ => 0), shareAt_zero]
      intro i hi
      rw [dropS, hd, if_neg]; omega
    · change shareAt p 0 (dropS (1 + draws p) (strm d)) R[i].2 = 0
      rw [shareAt_congr p 0 (ω' := fun _ => 0), shareAt_zero]
      intro i hi
      rw [dropS, hd, if_neg]; omega
    · change strm d (1 + draws p + draws p + R[i].2) = _
      rw [hd]
      by_cases h : i = j
      · subst h; simp
      · rw [if_neg h, if_neg]
        intro e
        exact h (hRinj i j (by omega))
  case hidden =>
    obtain ⟨δ, δ', hδ⟩ := hid
    let d : Fin n → F := fun i => if i.1 = 0 then 1 else if i.1 < 1 + draws p then δ (i.1 - 1) else
      if i.1 < 1 + draws p + draws p then δ' (i.1 - (1 + draws p)) else 0
    have hd : ∀ i < n, strm d i = if i = 0 then 1 else if i < 1 + draws p then δ (i - 1) else
        if i < 1 + draws p + draws p then δ' (i - (1 + draws p)) else 0 := by
      intro i hi
      simp only [strm, d, hi, dif_pos]
    refine ⟨d, ?_, fun i => ?_, ?_⟩
    · change strm d 0 = 1
      rw [hd 0 (by omega)]; simp
    · change strm d (1 + draws p + draws p + R[i].2) = 0
      have := hRl i
      rw [hd _ (by omega), if_neg (by omega), if_neg (by omega), if_neg (by omega)]
    · intro j i hji
      obtain ⟨l, hl, hf⟩ := found_places (List.getElem_mem j.2)
      obtain ⟨h, hh, q, hq, hpl, hhash⟩ := components_spec (List.getElem_mem i.2)
      have := hδ h hh q hq _ l _ hl hf (hpl.trans (congrArg some hji))
      rw [← hhash] at this
      change shareAt p (strm d 0) (dropS 1 (strm d)) R[j].2 + res[i].2 * shareAt p 0 (dropS (1 + draws p) (strm d)) R[j].2 = 0
      rw [hd 0 (by omega), if_pos rfl, shareAt_congr p 1 (ω' := δ), shareAt_congr p 0 (ω' := δ')]
      · exact this
      · intro i hi
        rw [dropS, hd _ (by omega), if_neg (by omega), if_neg (by omega), if_pos (by omega)]
        congr 1; omega
      · intro i hi
        rw [dropS, hd _ (by omega), if_neg (by omega), if_pos (by omega)]
        congr 1; omega
  case main =>
    intro z f f' m m' h h'
    simp only [Finset.mem_filter, Finset.mem_univ, true_and] at h h'
    obtain ⟨gk, t', keys, sks, ct, u, cts, hs, ha, hi, he, ho, hk⟩ := h
    obtain ⟨gk', t'', keys', sks', ct', u', cts', hs', ha', hi', he', ho', hk'⟩ := h'
    obtain rfl := setup_eq hs
    obtain rfl := setup_eq hs'
    have hkeys : keys' = keys := forall₂_det (by
      rintro o c c' ⟨_, h⟩ ⟨_, h'⟩
      have := h.symm.trans h'
      simp only [Res.ok.injEq, Prod.mk.injEq, Option.some.injEq] at this
      exact this.1) ha' ha
    subst hkeys
    have hsks : sks' = sks := forall₂_det (by
      rintro o c c' h h'
      exact Res.ok.inj (h.symm.trans h')) hi' hi
    subst hsks
    have hcts : cts' = cts := forall₂_det (by
      rintro o c c' ⟨_, h⟩ ⟨_, h'⟩
      have := h.symm.trans h'
      simp only [Res.ok.injEq, Prod.mk.injEq] at this
      exact this.1) ho' ho
    subst hcts
    have hpk := redraw_pks hM hK ha
    rw [← hfk] at hpk
    rw [hpk] at he he'
    rw [msks_eq ha] at hi
    have hone := keys_one (G2 := G2) (Gt := Gt) hM hK hi
    rw [← hres] at hone
    obtain ⟨s2, s3⟩ := sks_seen (G2 := G2) (Gt := Gt) sks'
    have hc := ct_strm hp hn he
    have hc' := ct_strm hp hn he'
    rw [← hfk, ← hR] at hc hc'
    rw [show keys'.map (fun key => (key.1.seen : View G1 G2 Gt)) = (keys'.map (·.1)).map PublicKey.seen by simp, hpk] at hk hk'
    have hlenT := keys_length (G1 := G1) (G2 := G2) (fun p : ℕ × ℕ => ye p z • t.g2 0)
      (fun p : ℕ × ℕ => al p z • env.pair (t.g1 0) (t.g2 0)) fk
    obtain ⟨k1, hlen2⟩ := keys_length_two (G1 := G1) (G2 := G2) (fun p : ℕ × ℕ => ye p z • t.g2 0)
      (fun p : ℕ × ℕ => al p z • env.pair (t.g1 0) (t.g2 0)) fk
    rw [← hLL] at hlen2 hlenT
    rw [eval_pairUp] at hk hk'
    simp only [View.all, View.join, hc, hc', hone, k1, cts_one, s2, s3, GlobalKey.seen, List.append_nil, List.nil_append]
      at hk hk'
    generalize hu : (fun j => weigh (fun i => k.pairs i j) 0 (extra.one ++
      res.map (fun x => (al x.1 z + x.2 * ye x.1 z) • t.g1 0) ++ [t.g1 0])) = v at hk hk'
    have hU : ∀ j, env.pair (v j) (t.g2 0) = U z j := by
      intro j
      rw [← hu, List.append_assoc]
      exact pair_left env (⟨t.g1 0, t.g2 0⟩ : GlobalKey G1 G2) (fun i => k.pairs i j) extra.one res
        fun x => al x.1 z + x.2 * ye x.1 z
    simp only [weigh_append, pairUp_append, zero_add, List.length_append, List.length_cons, List.length_nil,
      List.length_map, hlenT, hlen2, add_zero, weigh, ← hN, ← hN2, pairUp_eq_sum, weigh_eq_sum, map_smul, hU] at hk hk'
    have hk2 := congrArg₂ (· - ·) hk' hk
    have hlam : ∀ j, lam j (f' - f) = shareAt p (strm f' 0) (dropS 1 (strm f')) R[j].2 -
      shareAt p (strm f 0) (dropS 1 (strm f)) R[j].2 := fun j => map_sub (lam j) f' f
    have hw : ∀ j, w j (f' - f) = shareAt p 0 (dropS (1 + draws p) (strm f')) R[j].2 -
      shareAt p 0 (dropS (1 + draws p) (strm f)) R[j].2 := fun j => map_sub (w j) f' f
    have hr : ∀ j, r j (f' - f) = strm f' (1 + draws p + draws p + R[j].2) - strm f (1 + draws p + draws p + R[j].2) :=
      fun j => map_sub (r j) f' f
    have hσ : σ (f' - f) = strm f' 0 - strm f 0 := map_sub σ f' f
    simp only [hlam, hw, hr, hσ]
    refine hk2.symm.trans ?_
    have split : ∀ j : Fin R.length, ((k.tgt (N + 1 + j) * (shareAt p (strm f' 0) (dropS 1 (strm f')) R[j].2 -
          shareAt p (strm f 0) (dropS 1 (strm f)) R[j].2)) • E +
        (shareAt p 0 (dropS (1 + draws p) (strm f')) R[j].2 - shareAt p 0 (dropS (1 + draws p) (strm f)) R[j].2) •
          U z (N2 + R.length + j) +
        (strm f' (1 + draws p + draws p + R[j].2) - strm f (1 + draws p + draws p + R[j].2)) •
          ((k.tgt (N + 1 + j) * al R[j].1.e z) • E + U z (N2 + j) + ye R[j].1.e z • U z (N2 + R.length + j))) =
        (strm f' (1 + draws p + draws p + R[j].2) • U z (N2 + j) - strm f (1 + draws p + draws p + R[j].2) • U z (N2 + j)) +
        ((strm f' (1 + draws p + draws p + R[j].2) * ye R[j].1.e z + shareAt p 0 (dropS (1 + draws p) (strm f')) R[j].2) •
            U z (N2 + R.length + j) -
          (strm f (1 + draws p + draws p + R[j].2) * ye R[j].1.e z + shareAt p 0 (dropS (1 + draws p) (strm f)) R[j].2) •
            U z (N2 + R.length + j)) +
        (k.tgt (N + 1 + j) • (shareAt p (strm f' 0) (dropS 1 (strm f')) R[j].2 +
            strm f' (1 + draws p + draws p + R[j].2) * al R[j].1.e z) • E -
          k.tgt (N + 1 + j) • (shareAt p (strm f 0) (dropS 1 (strm f)) R[j].2 +
            strm f (1 + draws p + draws p + R[j].2) * al R[j].1.e z) • E) := by
      intro j
      module
    simp only [split, Finset.sum_add_distrib, Finset.sum_sub_distrib]
    module

end Aw11
end Rabe
