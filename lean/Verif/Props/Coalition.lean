import Verif.Props.OutsiderAw11
import Verif.Props.StoredPolicyAw11
import Verif.Instance.Bn

/-!
# C84: what the holders of AW11 keys can open together

The keys of any number of users, of any identities and from any authorities, together with everything public.
-/

set_option linter.unusedSectionVars false

namespace Rabe

variable {F G1 G2 Gt : Type} [Field F] [DecidableEq F] [AddCommGroup G1] [Module F G1]
  [AddCommGroup G2] [Module F G2] [AddCommGroup Gt] [Module F Gt]

/-- The stream with other first `n` scalars. -/
def Tape.setFirst {n : ℕ} (t : Tape F G1 G2 Gt) (f : Fin n → F) : Tape F G1 G2 Gt :=
  { t with fr := fun i => if h : i < n then f ⟨i, h⟩ else t.fr i }

open Classical in
/-- Counting when the slope in the last component is `c f + b * f j`, `c` independent of `f j`. -/
theorem count_slope {F P : Type} [Field F] [Fintype F] [Fintype P] {n : ℕ} (S : Finset ((Fin n → F) × P × F)) (j : Fin n)
    (c : (Fin n → F) → F) (hc : ∀ f x, c (Function.update f j x) = c f) (b : F) (hb : b ≠ 0)
    (h : ∀ f y a a', (f, y, a) ∈ S → (f, y, a') ∈ S → (c f + b * f j) * (a' - a) = 0) :
    S.card ≤ 2 * Fintype.card F ^ n * Fintype.card P := by
  have hs : S = (S.filter fun x => c x.1 + b * x.1 j ≠ 0) ∪ (S.filter fun x => c x.1 + b * x.1 j = 0) := by
    ext x; by_cases hx : c x.1 + b * x.1 j = 0 <;> simp [hx]
  have hcard : Fintype.card ((Fin n → F) × P) = Fintype.card F ^ n * Fintype.card P := by simp
  rw [hs]
  refine (Finset.card_union_le _ _).trans ?_
  rw [mul_assoc, two_mul, ← hcard]
  refine add_le_add ?_ ?_
  · refine Finset.card_le_card_of_injOn (t := Finset.univ) (fun x => (x.1, x.2.1)) (fun _ _ => Finset.mem_univ _) ?_
    rintro ⟨f, y, a⟩ h1 ⟨f', y', a'⟩ h2 e
    simp only [Prod.mk.injEq] at e
    obtain ⟨rfl, rfl⟩ := e
    simp only [Finset.coe_filter, Set.mem_ofPred_eq] at h1 h2
    have := h _ _ _ _ h1.1 h2.1
    rw [mul_eq_zero, sub_eq_zero] at this
    rw [this.resolve_left h1.2]
  · refine Finset.card_le_card_of_injOn (t := Finset.univ) (fun x => (Function.update x.1 j x.2.2, x.2.1))
      (fun _ _ => Finset.mem_univ _) ?_
    rintro ⟨f, y, a⟩ h1 ⟨f', y', a'⟩ h2 e
    simp only [Prod.mk.injEq] at e
    obtain ⟨e, rfl⟩ := e
    simp only [Finset.coe_filter, Set.mem_ofPred_eq] at h1 h2
    have ha : a = a' := by simpa using congrFun e j
    subst ha
    have hcf : c f = c f' := by rw [← hc f a, e, hc]
    have hj : f j = f' j := by
      have := h1.2.trans h2.2.symm
      rw [hcf] at this
      exact mul_left_cancel₀ hb (add_left_cancel this)
    have hf : f = f' := by
      funext i
      by_cases hi : i = j
      · rw [hi, hj]
      · simpa [hi] using congrFun e i
    rw [hf]

namespace Aw11

/-- A user and what they request: the identity, and for each request the authority and the attribute. -/
structure Holder where
  gid : Str
  requests : List (ℕ × Str)

/-- The key a user ends up with: one call of `add_to_attribute` (`/repo/src/schemes/aw11/mod.rs:200-231`) for each
request, which is also what `keygen` (`/repo/src/schemes/aw11/mod.rs:165-190`) does with a list of attributes. -/
def issue (cm : CaseMap) (env : Env F G1 G2 Gt) (gk : GlobalKey G1 G2) (msks : List (MasterKey F)) (h : Holder) :
    Res (SecretKey G1) :=
  Res.foldR (fun sk r => do
    let msk ← Res.index msks r.1
    addToAttribute cm env gk msk r.2 sk) ⟨h.gid, []⟩ h.requests

/-- Keys made by `keygen` are issued in this sense. -/
theorem keygen_issue (cm : CaseMap) (env : Env F G1 G2 Gt) (gk : GlobalKey G1 G2) (msks : List (MasterKey F)) (q : ℕ)
    (msk : MasterKey F) (hq : msks[q]? = some msk) (gid : Str) (attrs : List Str) (sk : SecretKey G1)
    (h : keygen cm env gk msk gid attrs = .ok sk) : issue cm env gk msks ⟨gid, attrs.map fun a => (q, a)⟩ = .ok sk := by
  unfold keygen at h
  split at h
  · simp at h
  split at h
  · simp at h
  have : ∀ (l : List Str) (s : SecretKey G1), Res.foldR (fun sk (r : ℕ × Str) => do
      let msk ← Res.index msks r.1
      addToAttribute cm env gk msk r.2 sk) s (l.map fun a => (q, a)) =
      Res.foldR (fun sk a => addToAttribute cm env gk msk a sk) s l := by
    intro l
    induction l with
    | nil => intro s; rfl
    | cons a l ih =>
      intro s
      have : Res.index msks q = .ok msk := by simp [Res.index, hq]
      simp only [List.map_cons, Res.foldR, Res.rbind_eq, this, Res.ok_bind, ih]
  rw [issue, this]
  exact h

/-- The group elements of a secret key, `/repo/src/schemes/aw11/mod.rs:86-89`. -/
def SecretKey.seen (sk : SecretKey G1) : View G1 G2 Gt := ⟨sk.attr.map (·.2), [], []⟩

/-- The computation `k` finds the session element of the ciphertext made by `job` from the keys of all `holders`, the
public keys, the ciphertext, the ciphertexts `others` and the elements `extra`. The varied values are the first `n`
random numbers of the encryption, the session element and the secret of attribute `i` of authority `p`. -/
def OpenedByCoalition (cm : CaseMap) (env : Env F G1 G2 Gt) (k : Formula F) (t : Tape F G1 G2 Gt)
    (auths : List (AuthJob F G1 G2 Gt)) (holders : List Holder) (job : CpJob F G1 G2 Gt)
    (others : List (CpJob F G1 G2 Gt)) (extra : View G1 G2 Gt) (p i : ℕ) {n : ℕ} (x : (Fin n → F) × Gt × F) : Prop :=
  ∃ gk t' keys sks ct u cts, setup t = .ok (gk, t') ∧
    List.Forall₂ (fun A key => ∃ u, authgen cm env gk A.attrs A.tape = .ok (some key, u)) (vary auths p i x.2.2) keys ∧
    List.Forall₂ (fun h sk => issue cm env gk (keys.map (·.2)) h = .ok sk) holders sks ∧
    encrypt cm env gk (keys.map (·.1)) job.text job.lang job.plain ((job.tape.setFirst x.1).setGt x.2.1) = .ok (ct, u) ∧
    List.Forall₂ (fun o c => ∃ u, encrypt cm env gk (keys.map (·.1)) o.text o.lang o.plain o.tape = .ok (c, u)) others cts ∧
    k.eval env (View.all (extra.join (View.all (sks.map SecretKey.seen)) :: gk.seen ::
      View.all (keys.map fun key => key.1.seen) :: ct.seen :: cts.map Ciphertext.seen)) = x.2.1

theorem mapL_authgen_msk (cm : CaseMap) (env : Env F G1 G2 Gt) (gk : GlobalKey G1 G2) : ∀ (l : List Str) (n : ℕ)
    (t t' : Tape F G1 G2 Gt) (c : List (PubAttr G2 Gt × MskAttr F)), RM.mapL (authgenAttr cm env gk) l t = .ok (c, t') →
      c.map (·.2) = (l.zipIdx n).map fun x => ⟨cm.upper x.1, t.fr (2 * (x.2 - n)), t.fr (2 * (x.2 - n) + 1)⟩
  | [], n, t, t', c, h => by
    have h' : (pure [] : RM F G1 G2 Gt _) t = .ok (c, t') := h
    rw [(RM.pure_ok.1 h').1]; rfl
  | a :: l, n, t, t', c, h => by
    have h' : (authgenAttr cm env gk a >>= fun y => RM.mapL (authgenAttr cm env gk) l >>= fun ys => pure (y :: ys)) t =
      .ok (c, t') := h
    simp only [RM.bind_ok, authgenAttr, RM.genFr, RM.pure_ok, Res.ok.injEq, Prod.mk.injEq] at h'
    obtain ⟨_, _, ⟨_, _, ⟨rfl, rfl⟩, _, _, ⟨rfl, rfl⟩, rfl, rfl⟩, ys, _, hys, rfl, rfl⟩ := h'
    simp only [List.map_cons, List.zipIdx_cons, mapL_authgen_msk cm env gk l (n + 1) _ _ _ hys]
    congr 1
    · simp [dropS]
    · apply List.map_congr_left
      intro x hx
      have hx := (List.mem_zipIdx hx).1
      simp only [dropS]
      rw [show 1 + (1 + 2 * (x.2 - (n + 1))) = 2 * (x.2 - n) by omega,
        show 1 + (1 + (2 * (x.2 - (n + 1)) + 1)) = 2 * (x.2 - n) + 1 by omega]

theorem authgen_msk {cm : CaseMap} {env : Env F G1 G2 Gt} {gk : GlobalKey G1 G2} {l : List Str} {t u : Tape F G1 G2 Gt}
    {key : PublicKey G2 Gt × MasterKey F} (h : authgen cm env gk l t = .ok (some key, u)) :
    key.2.attr = l.zipIdx.map fun x => ⟨cm.upper x.1, t.fr (2 * x.2), t.fr (2 * x.2 + 1)⟩ := by
  simp only [authgen] at h
  split at h
  · simp [RM.pure_ok] at h
  · simp only [RM.bind_ok, RM.pure_ok, Option.some.injEq] at h
    obtain ⟨c, _, hl, rfl, rfl⟩ := h
    exact mapL_authgen_msk cm env gk _ 0 _ _ _ hl

/-- The master keys, from the attributes and the random numbers. -/
def mskOf (cm : CaseMap) (A : AuthJob F G1 G2 Gt) : MasterKey F :=
  ⟨A.attrs.zipIdx.map fun x => ⟨cm.upper x.1, A.tape.fr (2 * x.2), A.tape.fr (2 * x.2 + 1)⟩⟩

theorem msks_eq {cm : CaseMap} {env : Env F G1 G2 Gt} {gk : GlobalKey G1 G2} {auths : List (AuthJob F G1 G2 Gt)}
    {keys : List (PublicKey G2 Gt × MasterKey F)}
    (h : List.Forall₂ (fun A key => ∃ u, authgen cm env gk A.attrs A.tape = .ok (some key, u)) auths keys) :
    keys.map (·.2) = auths.map (mskOf cm) := by
  refine forall₂_eq_map (R := fun A m => ∃ key, key.2 = m ∧ ∃ u, authgen cm env gk A.attrs A.tape = .ok (some key, u)) ?_ ?_
  · rintro A m ⟨key, rfl, u, h⟩
    have := authgen_msk h
    rcases key with ⟨pk, ⟨l⟩⟩
    rw [mskOf, ← this]
  · rw [List.forall₂_map_right_iff]
    exact h.imp fun A key h => ⟨key, rfl, h⟩

theorem pks_forall₂ {cm : CaseMap} {env : Env F G1 G2 Gt} {gk : GlobalKey G1 G2} {auths : List (AuthJob F G1 G2 Gt)}
    {keys : List (PublicKey G2 Gt × MasterKey F)}
    (h : List.Forall₂ (fun A key => ∃ u, authgen cm env gk A.attrs A.tape = .ok (some key, u)) auths keys) :
    List.Forall₂ (fun A pk => ∃ msk u, authgen cm env gk A.attrs A.tape = .ok (some (pk, msk), u)) auths (keys.map (·.1)) := by
  rw [List.forall₂_map_right_iff]
  exact h.imp fun A key ⟨u, h⟩ => ⟨key.2, u, h⟩

/-- The master keys answer a request for a name other than that of the varied attribute alike. -/
theorem request_vary (cm : CaseMap) (env : Env F G1 G2 Gt) (gk : GlobalKey G1 G2) (auths : List (AuthJob F G1 G2 Gt))
    (p i : ℕ) (a a' : F) (q : ℕ) (attr : Str) (sk : SecretKey G1)
    (hn : ∀ A, auths[p]? = some A → ∀ n, A.attrs[i]? = some n → cm.upper n ≠ attr) :
    (do let msk ← Res.index ((vary auths p i a).map (mskOf cm)) q; addToAttribute cm env gk msk attr sk) =
    (do let msk ← Res.index ((vary auths p i a').map (mskOf cm)) q; addToAttribute cm env gk msk attr sk) := by
  simp only [Res.index, vary, List.getElem?_map, List.getElem?_zipIdx, Option.map_map]
  cases hA : auths[q]? with
  | none => rfl
  | some A =>
    simp only [Option.map_some, Function.comp_def, zero_add, Res.unwrapOption_some, Res.ok_bind]
    by_cases hq : q = p
    swap
    · simp [hq]
    subst hq
    simp only [if_true, addToAttribute, mskOf, List.find?_map, Function.comp_def]
    cases hx : A.attrs.zipIdx.find? (fun x => cm.upper x.1 == attr) with
    | none => rfl
    | some x =>
      have hxn := List.find?_some hx
      have hxm := List.mem_of_find?_eq_some hx
      have hne : x.2 ≠ i := by
        rintro rfl
        have h1 := (List.mem_zipIdx_iff_getElem? (x := x)).1 hxm
        exact hn A hA x.1 h1 (by simpa using hxn)
      have e1 : ¬2 * x.2 = 2 * i := by omega
      have e2 : ¬2 * x.2 + 1 = 2 * i := by omega
      simp only [Option.map_some, Tape.setFr, e1, e2, if_false]

theorem issue_vary (cm : CaseMap) (env : Env F G1 G2 Gt) (gk : GlobalKey G1 G2) (auths : List (AuthJob F G1 G2 Gt))
    (p i : ℕ) (a a' : F) (h : Holder)
    (hn : ∀ A, auths[p]? = some A → ∀ n, A.attrs[i]? = some n → cm.upper n ∉ h.requests.map (·.2)) :
    issue cm env gk ((vary auths p i a).map (mskOf cm)) h = issue cm env gk ((vary auths p i a').map (mskOf cm)) h := by
  obtain ⟨gid, reqs⟩ := h
  unfold issue
  generalize (⟨gid, []⟩ : SecretKey G1) = s
  induction reqs generalizing s with
  | nil => rfl
  | cons r reqs ih =>
    have h1 := request_vary cm env gk auths p i a a' r.1 r.2 s fun A hA n hA' e => hn A hA n hA' (by simp [e])
    simp only [Res.foldR, Res.rbind_eq] at ih ⊢
    rw [h1]
    congr 1
    funext s'
    exact ih (fun A hA n hA' e => hn A hA n hA' (by
      simp only [List.map_cons, List.mem_cons]; exact Or.inr e)) s'

/-- A leaf with a public key, and the attribute of an authority it belongs to. -/
theorem found_formal {cm : CaseMap} {auths : List (AuthJob F G1 G2 Gt)} {l : List Str} {n : ℕ}
    {y : PubAttr F ((ℕ × ℕ) × F) × ℕ} (hy : y ∈ found cm (formal cm auths) l n) :
    (∃ x, l[y.2 - n]? = some x ∧ y.1.name = removeIndex (cm.upper x)) ∧ n ≤ y.2 ∧
      ∃ A, auths[y.1.e.1.1]? = some A ∧ ∃ m, A.attrs[y.1.e.1.2]? = some m ∧ cm.upper m = y.1.name := by
  simp only [found, List.mem_filterMap] at hy
  obtain ⟨⟨x, i⟩, hx, hy⟩ := hy
  have hx' := List.mem_zipIdx hx
  have hmem : ∀ (pks : List (PublicKey F ((ℕ × ℕ) × F))) (nm : Str) a, findPkAttr nm pks = some a →
      a.name = nm ∧ ∃ pk ∈ pks, a ∈ pk.attr := by
    intro pks nm a
    induction pks with
    | nil => simp [findPkAttr]
    | cons pk pks ih =>
      simp only [findPkAttr]
      cases hf : pk.attr.find? (fun a => a.name == nm) with
      | some b =>
        intro h
        simp only [Option.some.injEq] at h
        subst h
        exact ⟨by simpa using List.find?_some hf, pk, by simp, List.mem_of_find?_eq_some hf⟩
      | none =>
        intro h
        obtain ⟨h1, pk', h2, h3⟩ := ih h
        exact ⟨h1, pk', by simp [h2], h3⟩
  cases hf : findPkAttr (removeIndex (cm.upper x)) (formal cm auths) with
  | none => simp [hf] at hy
  | some a =>
    simp only [hf, Option.map_some, Option.some.injEq] at hy
    subst hy
    obtain ⟨h1, pk, h2, h3⟩ := hmem _ _ _ hf
    simp only [formal, List.mem_map] at h2
    obtain ⟨⟨A, q⟩, hA, rfl⟩ := h2
    simp only [List.mem_map] at h3
    obtain ⟨⟨m, j⟩, hm, rfl⟩ := h3
    refine ⟨⟨x, ?_, h1⟩, hx'.1, A, (List.mem_zipIdx_iff_getElem? (x := (A, q))).1 hA, m,
      (List.mem_zipIdx_iff_getElem? (x := (m, j))).1 hm, rfl⟩
    rw [hx'.2.2, List.getElem?_eq_getElem]

/-- Moving the secret to zero without changing the shares of the leaves with a name in `names`. -/
def moved {n : ℕ} (D : ℕ) (δ : F → ℕ → F) (f : Fin n → F) (h : 0 < n) : Fin n → F := fun i =>
  f i + if i.1 = 0 then -f ⟨0, h⟩ else if i.1 - 1 < D then δ (-f ⟨0, h⟩) (i.1 - 1) else 0

theorem fr_setFirst {n : ℕ} (t : Tape F G1 G2 Gt) (f : Fin n → F) (m : Gt) (i : ℕ) (h : i < n) :
    ((t.setFirst f).setGt m).fr i = f ⟨i, h⟩ := by
  simp [Tape.setFirst, Tape.setGt, h]

theorem sks_seen (sks : List (SecretKey G1)) :
    (View.all (sks.map (SecretKey.seen (G2 := G2) (Gt := Gt)))).two = [] ∧
    (View.all (sks.map (SecretKey.seen (G2 := G2) (Gt := Gt)))).tgt = [] := by
  induction sks with
  | nil => exact ⟨rfl, rfl⟩
  | cons sk sks ih => simp [View.all, View.join, SecretKey.seen, ih]

theorem removeIndex_upper_leaf (cm : CaseMap) (l : Str × ℕ) :
    removeIndex (cm.upper (leafIdx l)) = removeIndex (cm.upper l.1) := by
  rw [leafIdx, CaseMap.upper_nodeIndex, removeIndex_nodeIndex_eq]
  rfl

theorem weigh_congr {α : Type} (f : ℕ → F) : ∀ (n : ℕ) (l : List α) (g h : α → Gt),
    (∀ i y, l[i]? = some y → f (n + i) = 0 ∨ g y = h y) → weigh f n (l.map g) = weigh f n (l.map h)
  | _, [], _, _, _ => rfl
  | n, x :: l, g, h, H => by
    simp only [List.map_cons, weigh]
    rw [weigh_congr f (n + 1) l g h fun i y hi => by
      have := H (i + 1) y (by simpa using hi)
      rwa [show n + 1 + i = n + (i + 1) by omega]]
    congr 1
    rcases H 0 x rfl with h0 | h0
    · rw [add_zero] at h0; simp [h0]
    · rw [h0]

theorem shareAt_eq (p : Pol) (σ : F) (ω : ℕ → F) (i : ℕ) : shareAt p σ ω i = ((shareVals p σ ω)[i]?).getD 0 := by
  simp only [shareAt, shares, List.zip, List.getElem?_zipWith, List.getElem?_map]
  cases hl : p.leaves[i]? with
  | some l => cases (shareVals p σ ω)[i]? <;> rfl
  | none =>
    have : (shareVals p σ ω)[i]? = none := by
      rw [List.getElem?_eq_none_iff, shareVals_length]
      exact List.getElem?_eq_none_iff.1 hl
    rw [this]; rfl

open Classical in
/-- The bound of C84 with the attribute whose secret is varied: it is not among `names`, which contain all requested names and
do not satisfy the policy, or there is no such attribute, so that no secret of an authority is varied at all. -/
theorem coalition_names [BigChar F] [Fintype F] [Fintype Gt] (cm : CaseMap) (env : Env F G1 G2 Gt) (k : Formula F)
    (t : Tape F G1 G2 Gt) (hpair : env.pair (t.g1 0) (t.g2 0) ≠ 0) (auths : List (AuthJob F G1 G2 Gt))
    (holders : List Holder) (job : CpJob F G1 G2 Gt) (p : Pol) (hp : Denotes job.text job.lang p)
    (hlen : job.text.length < 2 ^ 64) (names : List Str) (hsub : ∀ h ∈ holders, ∀ r ∈ h.requests, r.2 ∈ names)
    (hsat : (rename (fun s => removeIndex (cm.upper s)) p).sat names = false)
    (others : List (CpJob F G1 G2 Gt)) (extra : View G1 G2 Gt) (n : ℕ)
    (hn : 1 + draws p + draws p + p.leaves.length ≤ n) :
    ∃ q i, (auths.length ≤ q ∨ ∃ A s, auths[q]? = some A ∧ A.attrs[i]? = some s ∧ cm.upper s ∉ names) ∧
      (Finset.univ.filter (OpenedByCoalition cm env k t auths holders job others extra q i (n := n))).card ≤
      2 * Fintype.card F ^ n * Fintype.card Gt := by
  set ρ := fun s => removeIndex (cm.upper s) with hρ
  have hf : p.Fits := by
    obtain ⟨q, hq, hf, _⟩ := parse_ok hp
    rw [toValue_inj _ _ hq]; exact hf hlen
  have hf' : (rename ρ p).Fits := (arity_rename ρ _ p).2 hf
  choose δ hδ using fun d : F => hides names (rename ρ p) hf' hsat d
  set fk := formal cm auths with hfk
  set R := found cm fk (p.leaves.map leafIdx) 0 with hR
  set N := extra.tgt.length + (fk.flatMap fun pk => pk.attr.map fun b => b.e).length with hN
  by_cases hex : ∃ x < R.length, k.tgt (N + 1 + x) ≠ 0 ∧ ∀ y, R[x]? = some y → y.1.name ∉ names
  · obtain ⟨x, hx, hf, hnot⟩ := hex
    have hy : R[x]? = some R[x] := List.getElem?_eq_getElem hx
    set y := R[x] with hyd
    replace hnot := hnot y hy
    obtain ⟨⟨lab, hlab, -⟩, -, A, hA, nm, hnm, hup⟩ := found_formal (List.getElem_mem hx)
    rw [← hyd] at hlab hA hnm hup
    have hlt : y.2 < p.leaves.length := by
      have := (List.getElem?_eq_some_iff.1 hlab).1
      simpa using this
    have hlt' : 1 + draws p + draws p + y.2 < n := by omega
    have hissue : ∀ a a' : F, ∀ h ∈ holders,
        issue cm env ⟨t.g1 0, t.g2 0⟩ ((vary auths y.1.e.1.1 y.1.e.1.2 a).map (mskOf cm)) h =
        issue cm env ⟨t.g1 0, t.g2 0⟩ ((vary auths y.1.e.1.1 y.1.e.1.2 a').map (mskOf cm)) h := by
      intro a a' h hh
      refine issue_vary cm env _ auths _ _ a a' h fun A' hA' n' hn' hmem => hnot ?_
      rw [hA] at hA'
      obtain rfl := Option.some.inj hA'
      rw [hnm] at hn'
      obtain rfl := Option.some.inj hn'
      rw [← hup]
      obtain ⟨r, hr, hr'⟩ := List.mem_map.1 hmem
      exact hr' ▸ hsub h hh r hr
    refine ⟨y.1.e.1.1, y.1.e.1.2, .inr ⟨A, nm, hA, hnm, hup ▸ hnot⟩, ?_⟩
    obtain ⟨post, hpost⟩ := cts_move cm env (⟨t.g1 0, t.g2 0⟩ : GlobalKey G1 G2) fk y.1.e.1 0 others
    set pre := extra.tgt.map (fun _ => (0 : F)) ++
      ((fk.flatMap fun pk => pk.attr.map fun b => if b.e.1 = y.1.e.1 then (1 : F) else 0) ++ [0]) with hpre
    have hBl : extra.tgt.length + (fk.flatMap fun pk => pk.attr.map fun b =>
        if b.e.1 = y.1.e.1 then (1 : F) else 0).length = N := by
      rw [hN]
      simp [List.length_flatMap]
    set g : (Fin n → F) → PubAttr F ((ℕ × ℕ) × F) × ℕ → F := fun f z =>
      if z.2 = y.2 then 0 else (job.tape.setFirst f).fr (1 + draws p + draws p + z.2) *
        if z.1.e.1 = y.1.e.1 then 1 else 0 with hg
    refine count_slope _ ⟨1 + draws p + draws p + y.2, hlt'⟩
      (fun f => slope k.tgt 0 pre + slope k.tgt (N + 1) (R.map (g f)) + slope k.tgt (N + 1 + R.length) post) ?_
      (k.tgt (N + 1 + x)) hf ?_
    · intro f v
      have : R.map (g (Function.update f ⟨1 + draws p + draws p + y.2, hlt'⟩ v)) = R.map (g f) := by
        apply List.map_congr_left
        intro z _
        simp only [hg]
        split
        · rfl
        · rename_i hz
          congr 1
          simp only [Tape.setFirst]
          split
          · rw [Function.update_of_ne]
            intro e
            simp only [Fin.mk.injEq] at e
            omega
          · rfl
      simp only [this]
    rintro f m a a' h h'
    simp only [Finset.mem_filter, Finset.mem_univ, true_and] at h h'
    obtain ⟨gk, t', keys, sks, ct, u, cts, hs, ha, hi, he, ho, hk⟩ := h
    obtain ⟨gk', t'', keys', sks', ct', u', cts', hs', ha', hi', he', ho', hk'⟩ := h'
    obtain rfl := setup_eq hs
    obtain rfl := setup_eq hs'
    have hpk := keys_eq (pks_forall₂ ha)
    have hpk' := keys_eq (pks_forall₂ ha')
    rw [msks_eq ha] at hi
    rw [msks_eq ha'] at hi'
    have hsks : sks' = sks := by
      clear hk hk'
      have : ∀ {hs : List Holder} {s s' : List (SecretKey G1)}, (∀ h ∈ hs, h ∈ holders) →
          List.Forall₂ (fun h sk => issue cm env ⟨t.g1 0, t.g2 0⟩
            ((vary auths y.1.e.1.1 y.1.e.1.2 a).map (mskOf cm)) h = .ok sk) hs s →
          List.Forall₂ (fun h sk => issue cm env ⟨t.g1 0, t.g2 0⟩
            ((vary auths y.1.e.1.1 y.1.e.1.2 a').map (mskOf cm)) h = .ok sk) hs s' → s' = s := by
        intro hs s s' hm h1
        induction h1 generalizing s' with
        | nil => rintro ⟨⟩; rfl
        | cons h1 _ ih =>
          rintro (_ | ⟨h2, l2⟩)
          rw [ih (fun h hh => hm h (by simp [hh])) l2]
          rw [hissue a a' _ (hm _ (by simp))] at h1
          rw [Res.ok.inj (h1.symm.trans h2)]
      exact this (fun _ h => h) hi hi'
    subst hsks
    rw [hpk] at he ho
    rw [hpk'] at he' ho'
    rw [show keys.map (fun key => (key.1.seen : View G1 G2 Gt)) = (keys.map (·.1)).map PublicKey.seen by simp, hpk] at hk
    rw [show keys'.map (fun key => (key.1.seen : View G1 G2 Gt)) = (keys'.map (·.1)).map PublicKey.seen by simp, hpk'] at hk'
    obtain ⟨o1, o2, o3⟩ := hpost a a' _ _ ho ho'
    obtain ⟨f1, f2, f3⟩ := formal_move (G1 := G1) cm env (⟨t.g1 0, t.g2 0⟩ : GlobalKey G1 G2) y.1.e.1 a a' 0 fk
    have f1' := (formal_move (G1 := G1) cm env (⟨t.g1 0, t.g2 0⟩ : GlobalKey G1 G2) y.1.e.1 a' a 0 fk).1
    have hc := ct_seen hp he
    have hc' := ct_seen hp he'
    obtain ⟨s2, s3⟩ := sks_seen (G2 := G2) (Gt := Gt) sks'
    have hc3 : Moves ((a' - a) • env.pair (t.g1 0) (t.g2 0)) 0
        (((0 : F), (0 : F)) :: R.map fun z => (g f z + (if z.2 = y.2 then 1 else 0) *
          f ⟨1 + draws p + draws p + y.2, hlt'⟩, 0)) (ct.seen : View G1 G2 Gt).tgt (ct'.seen : View G1 G2 Gt).tgt := by
      rw [hc, hc']
      refine ⟨by simp, Moves.map _ fun z hz => ?_⟩
      by_cases hzy : z.2 = y.2
      · have : z = y := by
          have hn := nodup_found cm fk (p.leaves.map leafIdx) 0
          rw [← hR] at hn
          exact List.inj_on_of_nodup_map hn hz (List.getElem_mem hx) hzy
        simp only [this, if_true, secret, hg, fr_setFirst _ _ _ _ hlt']
        module
      · have hT : ((job.tape.setFirst f).setGt m).fr (1 + draws p + draws p + z.2) =
            (job.tape.setFirst f).fr (1 + draws p + draws p + z.2) := rfl
        simp only [hzy, if_false, secret, hg, hT]
        split <;> module
    have hev := eval_sub env k (v := View.all (extra.join (View.all (sks'.map SecretKey.seen)) ::
        GlobalKey.seen ⟨t.g1 0, t.g2 0⟩ ::
        View.all ((fk.map (PublicKey.map (· • t.g2 0) (fun e => secret y.1.e.1 a' e • env.pair (t.g1 0) (t.g2 0)))).map
          PublicKey.seen) :: ct'.seen :: cts'.map Ciphertext.seen))
      (w := View.all (extra.join (View.all (sks'.map SecretKey.seen)) :: GlobalKey.seen ⟨t.g1 0, t.g2 0⟩ ::
        View.all ((fk.map (PublicKey.map (· • t.g2 0) (fun e => secret y.1.e.1 a e • env.pair (t.g1 0) (t.g2 0)))).map
          PublicKey.seen) :: ct.seen :: cts.map Ciphertext.seen))
      (by simp only [View.all, View.join, o1, f1, f1', hc, hc'])
      (by simp only [View.all, View.join, o2, f2, hc, hc'])
    have hk2 := hk'.trans hk.symm
    rw [← sub_eq_zero] at hk2
    have hk3 := hev.symm.trans hk2
    have hm := (Moves.refl (F := F) ((a' - a) • env.pair (t.g1 0) (t.g2 0)) 0 extra.tgt).append
      ((show Moves _ _ ([] : List (F × F)) [] [] from trivial).append (f3.append (hc3.append o3)))
    have hw := hm.weigh k.tgt 0
    simp only [View.all, View.join, s3, List.append_nil] at hk3
    have hw2 := hw.symm.trans hk3
    rw [slope_parts, slope_affine, hBl] at hw2
    have hn := nodup_found cm fk (p.leaves.map leafIdx) 0
    rw [← hR] at hn
    rw [slope_indicator k.tgt R (N + 1) x y hn hy, ← hpre] at hw2
    rw [smul_zero, add_zero, smul_smul, smul_eq_zero] at hw2
    rw [← hw2.resolve_right hpair]
    ring
  · push Not at hex
    refine ⟨auths.length, 0, .inl le_rfl, ?_⟩
    set S := Finset.univ.filter (OpenedByCoalition cm env k t auths holders job others extra auths.length 0 (n := n)) with hS
    have h0 : 0 < n := by omega
    have main : ∀ (f f' : Fin n → F) (m m' : Gt) (a : F), moved (draws p) δ f h0 = moved (draws p) δ f' h0 →
        (f, m, a) ∈ S → (f', m', a) ∈ S →
        k.tgt N • ((m' - m) + (f' ⟨0, h0⟩ - f ⟨0, h0⟩) • env.pair (t.g1 0) (t.g2 0)) = m' - m := by
      intro f f' m m' a hmv h h'
      simp only [hS, Finset.mem_filter, Finset.mem_univ, true_and] at h h'
      obtain ⟨gk, t', keys, sks, ct, u, cts, hs, ha, hi, he, ho, hk⟩ := h
      obtain ⟨gk', t'', keys', sks', ct', u', cts', hs', ha', hi', he', ho', hk'⟩ := h'
      obtain rfl := setup_eq hs
      obtain rfl := setup_eq hs'
      have hkeys : keys' = keys := forall₂_det (by
        rintro o c c' ⟨_, h⟩ ⟨_, h'⟩
        have := h.symm.trans h'
        simp only [Res.ok.injEq, Prod.mk.injEq, Option.some.injEq] at this
        exact this.1) ha' ha
      subst hkeys
      have hsks : sks' = sks := forall₂_det (by
        rintro o c c' h h'
        exact Res.ok.inj (h.symm.trans h')) hi' hi
      subst hsks
      have hcts : cts' = cts := forall₂_det (by
        rintro o c c' ⟨_, h⟩ ⟨_, h'⟩
        have := h.symm.trans h'
        simp only [Res.ok.injEq, Prod.mk.injEq] at this
        exact this.1) ho' ho
      subst hcts
      have hpk := keys_eq (pks_forall₂ ha)
      rw [← hfk] at hpk
      rw [hpk] at he he'
      have hc := ct_seen hp he
      have hc' := ct_seen hp he'
      rw [← hR] at hc hc'
      have hlate : ∀ i, 1 + draws p ≤ i → (job.tape.setFirst f).fr i = (job.tape.setFirst f').fr i := by
        intro i hi
        simp only [Tape.setFirst]
        split
        · rename_i hin
          have := congrFun hmv ⟨i, hin⟩
          simpa [moved, show i ≠ 0 by omega, show ¬i - 1 < draws p by omega] using this
        · rfl
      have hT : ∀ (f : Fin n → F) (m : Gt) i, ((job.tape.setFirst f).setGt m).fr i = (job.tape.setFirst f).fr i := fun _ _ _ => rfl
      have hW : ∀ z, shareAt p 0 (dropS (1 + draws p) ((job.tape.setFirst f').setGt m').fr) z =
          shareAt p 0 (dropS (1 + draws p) ((job.tape.setFirst f).setGt m).fr) z := by
        intro z
        rw [shareAt_eq, shareAt_eq, shareVals_congr p 0 (ω' := dropS (1 + draws p) ((job.tape.setFirst f).setGt m).fr)]
        intro i _
        simp only [dropS, hT]
        exact (hlate _ (by omega)).symm
      have hr : ∀ z, (job.tape.setFirst f').fr (1 + draws p + draws p + z) = (job.tape.setFirst f).fr (1 + draws p + draws p + z) :=
        fun z => (hlate _ (by omega)).symm
      have two : (ct'.seen : View G1 G2 Gt).two = (ct.seen : View G1 G2 Gt).two := by
        rw [hc, hc']
        simp only [hT, hW, hr]
      have toZero : ∀ (f : Fin n → F) (m : Gt) (i : ℕ) (l : Str × ℕ), (rename ρ p).leaves[i]? = some l → l.1 ∈ names →
          shareAt p (((job.tape.setFirst f).setGt m).fr 0) (dropS 1 ((job.tape.setFirst f).setGt m).fr) i =
          ((shareVals p 0 fun i => if h : i + 1 < n then moved (draws p) δ f h0 ⟨i + 1, h⟩ else 0)[i]?).getD 0 := by
        intro f m i l hl hmem
        rw [shareAt_eq, fr_setFirst _ _ _ _ h0]
        have h1 := hδ (-f ⟨0, h0⟩) (f ⟨0, h0⟩) (dropS 1 ((job.tape.setFirst f).setGt m).fr) i l hl hmem
        rw [shareVals_rename, shareVals_rename, add_neg_cancel] at h1
        rw [h1, shareVals_congr p 0]
        intro j hj
        have hj' : j + 1 < n := by omega
        simp only [Pi.add_apply, dropS, Nat.add_comm 1 j, fr_setFirst _ _ _ _ hj', hj', dif_pos, moved]
        simp [hj]
      have hcomp : ∀ i y, R[i]? = some y → k.tgt (N + 1 + i) = 0 ∨
          shareAt p (((job.tape.setFirst f').setGt m').fr 0) (dropS 1 ((job.tape.setFirst f').setGt m').fr) y.2 =
          shareAt p (((job.tape.setFirst f).setGt m).fr 0) (dropS 1 ((job.tape.setFirst f).setGt m).fr) y.2 := by
        intro i y hi
        by_cases hk0 : k.tgt (N + 1 + i) = 0
        · exact Or.inl hk0
        right
        obtain ⟨y', hy', hmem⟩ := hex i (List.getElem?_eq_some_iff.1 hi).1 hk0
        rw [hi] at hy'
        obtain rfl := Option.some.inj hy'
        obtain ⟨⟨lab, hlab, hname⟩, -, -⟩ := found_formal (List.mem_of_getElem? hi)
        rw [Nat.sub_zero, List.getElem?_map] at hlab
        cases hl : p.leaves[y.2]? with
        | none => simp [hl] at hlab
        | some l =>
          rw [hl] at hlab
          obtain rfl := Option.some.inj hlab
          rw [removeIndex_upper_leaf] at hname
          have hl' : (rename ρ p).leaves[y.2]? = some (ρ l.1, l.2) := by
            rw [leaves_rename, List.getElem?_map, hl]; rfl
          have hm' : ρ l.1 ∈ names := by rw [hρ]; dsimp only; rw [← hname]; exact hmem
          rw [toZero f' m' _ _ hl' hm', toZero f m _ _ hl' hm', hmv]
      have hev := eval_sub env k (v := View.all (extra.join (View.all (sks'.map SecretKey.seen)) ::
          GlobalKey.seen ⟨t.g1 0, t.g2 0⟩ ::
          View.all (keys'.map fun key => key.1.seen) :: ct'.seen :: cts'.map Ciphertext.seen))
        (w := View.all (extra.join (View.all (sks'.map SecretKey.seen)) :: GlobalKey.seen ⟨t.g1 0, t.g2 0⟩ ::
          View.all (keys'.map fun key => key.1.seen) :: ct.seen :: cts'.map Ciphertext.seen))
        (by simp only [View.all, View.join, hc, hc']) (by simp only [View.all, View.join, two])
      have hk2 : _ - _ = m' - m := congrArg₂ (· - ·) hk' hk
      have hk3 := hev.symm.trans hk2
      rw [show keys'.map (fun key => (key.1.seen : View G1 G2 Gt)) = (keys'.map (·.1)).map PublicKey.seen by simp, hpk] at hk3
      have hlenK := keys_length (G1 := G1) (G2 := G2) (· • t.g2 0) (fun e => secret (auths.length, 0) a e • env.pair (t.g1 0) (t.g2 0)) fk
      have hl : (ct'.seen : View G1 G2 Gt).tgt.length = (ct.seen : View G1 G2 Gt).tgt.length := by
        rw [hc, hc']; simp
      obtain ⟨s2, s3⟩ := sks_seen (G2 := G2) (Gt := Gt) sks'
      simp only [View.all, View.join, weigh_append, hl, hlenK, zero_add, GlobalKey.seen, weigh, List.length_nil, add_zero,
        s3, List.append_nil, ← hN] at hk3
      rw [hc, hc'] at hk3
      simp only [weigh] at hk3
      have hsame : weigh k.tgt (N + 1) (R.map fun y => shareAt p (((job.tape.setFirst f').setGt m').fr 0)
          (dropS 1 ((job.tape.setFirst f').setGt m').fr) y.2 • env.pair (t.g1 0) (t.g2 0) +
          ((job.tape.setFirst f').setGt m').fr (1 + draws p + draws p + y.2) • secret (auths.length, 0) a y.1.e •
            env.pair (t.g1 0) (t.g2 0)) =
        weigh k.tgt (N + 1) (R.map fun y => shareAt p (((job.tape.setFirst f).setGt m).fr 0)
          (dropS 1 ((job.tape.setFirst f).setGt m).fr) y.2 • env.pair (t.g1 0) (t.g2 0) +
          ((job.tape.setFirst f).setGt m).fr (1 + draws p + draws p + y.2) • secret (auths.length, 0) a y.1.e •
            env.pair (t.g1 0) (t.g2 0)) := by
        refine weigh_congr k.tgt (N + 1) R _ _ fun i y hi => (hcomp i y hi).imp id fun h => ?_
        rw [h, hT, hT, hr]
        rfl
      rw [hsame] at hk3
      rw [fr_setFirst _ _ _ _ h0, fr_setFirst _ _ _ _ h0] at hk3
      simp only [Tape.setGt, if_true] at hk3
      refine Eq.trans ?_ hk3
      module
    have hq : Fintype.card F ≤ Fintype.card Gt :=
      Fintype.card_le_of_injective _ (smul_left_injective F hpair)
    by_cases hN0 : k.tgt N = 0
    · have : S.card ≤ Fintype.card ((Fin n → F) × F) := by
        refine Finset.card_le_card_of_injOn (t := Finset.univ) (fun x => (x.1, x.2.2)) (fun _ _ => Finset.mem_univ _) ?_
        rintro ⟨f, m, a⟩ h ⟨f', m', a'⟩ h' e
        simp only [Prod.mk.injEq] at e
        obtain ⟨rfl, rfl⟩ := e
        have := main f f m m' a rfl h h'
        rw [hN0, zero_smul, eq_comm, sub_eq_zero] at this
        rw [this]
      refine this.trans ?_
      simp only [Fintype.card_prod, Fintype.card_fun, Fintype.card_fin]
      refine (Nat.mul_le_mul_left (Fintype.card F ^ n) hq).trans ?_
      rw [mul_assoc]
      exact Nat.le_mul_of_pos_left _ two_pos
    · have : S.card ≤ Fintype.card ((Fin n → F) × Gt) := by
        refine Finset.card_le_card_of_injOn (t := Finset.univ)
          (fun x => (Function.update (moved (draws p) δ x.1 h0) ⟨0, h0⟩ x.2.2, x.2.1)) (fun _ _ => Finset.mem_univ _) ?_
        rintro ⟨f, m, a⟩ h ⟨f', m', a'⟩ h' e
        simp only [Prod.mk.injEq] at e
        obtain ⟨e, rfl⟩ := e
        have ha : a = a' := by simpa using congrFun e ⟨0, h0⟩
        subst ha
        have hmv : moved (draws p) δ f h0 = moved (draws p) δ f' h0 := by
          funext i
          by_cases hi : i = ⟨0, h0⟩
          · subst hi; simp [moved]
          · simpa [hi] using congrFun e i
        have h00 := main f f' m m a hmv h h'
        simp only [sub_self, zero_add, smul_eq_zero, hN0, hpair, false_or, or_false, sub_eq_zero] at h00
        have hff : f = f' := by
          funext i
          have := congrFun hmv i
          simp only [moved, h00] at this
          exact add_right_cancel this
        rw [hff]
      refine this.trans ?_
      simp only [Fintype.card_prod, Fintype.card_fun, Fintype.card_fin]
      rw [mul_assoc]
      exact Nat.le_mul_of_pos_left _ two_pos

open Classical in
/-- **C84.** Any number of users with any identities have keys for any attributes, from any authorities. If the requested
names all together do not satisfy the policy (with every name of the policy replaced by the name under which encryption
looks for the public key), then for every computation there is an attribute of an authority such that the computation
gives the session element for at most the fraction `2 / q` of the choices of the random numbers of the encryption, the
session element and the secret of this attribute. -/
theorem C84_coalition_lookup [BigChar F] [Fintype F] [Fintype Gt] (cm : CaseMap) (env : Env F G1 G2 Gt) (k : Formula F)
    (t : Tape F G1 G2 Gt) (hpair : env.pair (t.g1 0) (t.g2 0) ≠ 0) (auths : List (AuthJob F G1 G2 Gt))
    (holders : List Holder) (job : CpJob F G1 G2 Gt) (p : Pol) (hp : Denotes job.text job.lang p)
    (hlen : job.text.length < 2 ^ 64)
    (hsat : (rename (fun s => removeIndex (cm.upper s)) p).sat (holders.flatMap fun h => h.requests.map (·.2)) = false)
    (others : List (CpJob F G1 G2 Gt)) (extra : View G1 G2 Gt) (n : ℕ)
    (hn : 1 + draws p + draws p + p.leaves.length ≤ n) :
    ∃ q i, (Finset.univ.filter (OpenedByCoalition cm env k t auths holders job others extra q i (n := n))).card ≤
      2 * Fintype.card F ^ n * Fintype.card Gt := by
  obtain ⟨q, i, -, h⟩ := coalition_names cm env k t hpair auths holders job p hp hlen _
    (fun h hh r hr => List.mem_flatMap.2 ⟨h, hh, List.mem_map_of_mem hr⟩) hsat others extra n hn
  exact ⟨q, i, h⟩

theorem rename_congr {f g : Str → Str} : ∀ p : Pol, (∀ l ∈ p.leaves, f l.1 = g l.1) → rename f p = rename g p := by
  intro p
  induction p using Pol.ind with
  | hl n c =>
    intro h
    have := h (n, c) (by simp)
    simpa [rename] using this
  | hg op cs ih =>
    intro h
    simp only [rename, renameL_eq, Pol.gate.injEq, true_and]
    refine List.map_congr_left fun c hc => ih c hc fun l hl => h l ?_
    rw [Pol.leaves_gate]
    exact List.mem_flatMap.2 ⟨c, hc, hl⟩

open Classical in
/-- **C84, partial: names without underscore.** As `C84_coalition_lookup`, with the policy read as it is written (in upper
case). (Full claim: for all attribute names; false, see `C84_violated`.) -/
theorem C84_coalition_partial [BigChar F] [Fintype F] [Fintype Gt] (cm : CaseMap) (env : Env F G1 G2 Gt) (k : Formula F)
    (t : Tape F G1 G2 Gt) (hpair : env.pair (t.g1 0) (t.g2 0) ≠ 0) (auths : List (AuthJob F G1 G2 Gt))
    (holders : List Holder) (job : CpJob F G1 G2 Gt) (p : Pol) (hp : Denotes job.text job.lang p)
    (hlen : job.text.length < 2 ^ 64) (hu : ∀ l ∈ p.leaves, '_' ∉ l.1)
    (hsat : (rename cm.upper p).sat (holders.flatMap fun h => h.requests.map (·.2)) = false)
    (others : List (CpJob F G1 G2 Gt)) (extra : View G1 G2 Gt) (n : ℕ)
    (hn : 1 + draws p + draws p + p.leaves.length ≤ n) :
    ∃ q i, (Finset.univ.filter (OpenedByCoalition cm env k t auths holders job others extra q i (n := n))).card ≤
      2 * Fintype.card F ^ n * Fintype.card Gt := by
  refine C84_coalition_lookup cm env k t hpair auths holders job p hp hlen ?_ others extra n hn
  rw [← hsat]
  congr 1
  refine rename_congr p fun l hl => removeIndex_of_not_mem ?_
  intro hmem
  obtain ⟨c, hc, hc'⟩ := List.mem_flatMap.1 hmem
  exact hu l hl (cm.only_underscore c hc' ▸ hc)

/-- **C84 is violated** by names with an underscore: encryption uses the public key of the part before it. A user with a key
for `A` reads a message for the policy `"A_B"`: decryption refuses, but after the stored policy is replaced by `"A"` and
the component is relabelled it gives the plaintext. -/
theorem C84_violated : (do
    let x ← setup toyTape
    let y ← authgen asciiCase toyEnv x.1 [['A']] { toyTape with fr := fun n => n + 2 }
    let a ← Res.unwrapOption y.1
    let u ← keygen asciiCase toyEnv x.1 a.2 ['U'] [['A']]
    let z ← encrypt asciiCase toyEnv x.1 [a.1] (chars% "\"A_B\"") .human [1, 2, 3] { toyTape with fr := fun n => n + 3 }
    let c := z.1.c.map fun (c : CtAttr Fr Fr) => { c with name := (chars% "A_2") }
    Res.ok (decrypt toyEnv x.1 u z.1, decrypt toyEnv x.1 u { z.1 with policy := ((chars% "\"A\""), .human), c := c })) =
    .ok (.err, .ok [1, 2, 3]) := by decide +kernel

/-- An authority with two attributes, a user with one of them and a policy that needs both. The numbers are such that the
secret of the encryption is zero: then the session element is read off the ciphertext, so the set counted in
`C84_coalition_partial` is not empty. -/
example : toyEnv.pair (toyTape.g1 0) (toyTape.g2 0) ≠ 0 ∧
    Denotes (chars% "\"A\" and \"B\"") .human (.gate .and [.leaf ['A'] 2, .leaf ['B'] 10]) ∧
    (rename asciiCase.upper (.gate .and [.leaf ['A'] 2, .leaf ['B'] 10])).sat [['A']] = false ∧
    1 + draws (.gate .and [.leaf ['A'] 2, .leaf ['B'] 10]) + draws (.gate .and [.leaf ['A'] 2, .leaf ['B'] 10]) + 2 = 5 ∧
    OpenedByCoalition asciiCase toyEnv ⟨fun _ _ => 0, fun i => if i = 2 then 1 else 0⟩ toyTape
      [⟨[['A'], ['B']], toyTape⟩] [⟨['U'], [(0, ['A'])]⟩] ⟨chars% "\"A\" and \"B\"", .human, [1, 2, 3], toyTape⟩ []
      ⟨[], [], []⟩ 0 1 (![0, 3, 4, 5, 6], (6 : Fr), 7) := by
  refine ⟨by decide +kernel, rfl, by decide +kernel, by decide +kernel, ?_⟩
  have h : (setup (F := Fr) toyTape).check (fun x =>
      (authgen asciiCase toyEnv x.1 [['A'], ['B']] (toyTape.setFr 2 7)).check fun y => match y.1 with
      | none => false
      | some key =>
        (issue asciiCase toyEnv x.1 [key.2] ⟨['U'], [(0, ['A'])]⟩).check fun sk =>
        (encrypt asciiCase toyEnv x.1 [key.1] (chars% "\"A\" and \"B\"") .human [1, 2, 3]
          ((toyTape.setFirst ![0, 3, 4, 5, 6]).setGt 6)).check fun z =>
        decide (Formula.eval toyEnv ⟨fun _ _ => 0, fun i => if i = 2 then 1 else 0⟩
          (View.all [(⟨[], [], []⟩ : View Fr Fr Fr).join (View.all [sk.seen]), x.1.seen, View.all [key.1.seen],
            z.1.seen]) = 6)) = true := by
    decide +kernel
  rw [Res.check_iff] at h
  obtain ⟨⟨gk, t'⟩, hs, h⟩ := h
  rw [Res.check_iff] at h
  obtain ⟨⟨key?, u⟩, ha, h⟩ := h
  cases key? with
  | none => simp at h
  | some key =>
    simp only [] at h
    rw [Res.check_iff] at h
    obtain ⟨sk, hi, h⟩ := h
    rw [Res.check_iff] at h
    obtain ⟨⟨ct, v⟩, he, h⟩ := h
    exact ⟨gk, t', [key], [sk], ct, v, [], hs, .cons ⟨u, ha⟩ .nil, .cons hi .nil, he, .nil, of_decide_eq_true h⟩

end Aw11
end Rabe
