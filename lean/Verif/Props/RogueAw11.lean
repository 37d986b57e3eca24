import Verif.Props.DishonestAw11

/-!
# C92, AW11: dishonest authorities that compute their keys from the keys of the honest ones

In MKE08 such keys open everything (`Mke08.C92_violated_mke08`). In AW11 they do not help.
-/

set_option linter.unusedSectionVars false

namespace Rabe

variable {F G1 G2 Gt : Type} [Field F] [DecidableEq F] [AddCommGroup G1] [Module F G1]
  [AddCommGroup G2] [Module F G2] [AddCommGroup Gt] [Module F Gt]

namespace Aw11

/-- One attribute in the public key of a dishonest authority, an entry `(name, e, y)` of `Aw11PublicKey`
(`/repo/src/schemes/aw11/mod.rs:59-61`): `e` is `base` and any multiples (`coeff q i`) of the published elements of the
attributes `i` of the honest authorities `q`. The element `y` may be anything. -/
structure RogueAttr (F G2 Gt : Type) where
  name : Str
  base : Gt
  coeff : ℕ → ℕ → F
  y : G2

/-- The elements `e` of the public keys of the honest authorities, with their places. -/
def publishedE (pks : List (PublicKey G2 Gt)) : List ((ℕ × ℕ) × Gt) :=
  pks.zipIdx.flatMap fun A => A.1.attr.zipIdx.map fun x => ((A.2, x.2), x.1.e)

/-- What the dishonest authority publishes when it sees the keys `pks`. -/
def RogueAttr.publish (pks : List (PublicKey G2 Gt)) (r : RogueAttr F G2 Gt) : PubAttr G2 Gt :=
  ⟨r.name, r.base + ((publishedE pks).map fun x => r.coeff x.1.1 x.1.2 • x.2).sum, r.y⟩

/-- One of the public keys given to encryption (`pks` in `/repo/src/schemes/aw11/mod.rs:241-247`): that of an honest authority or
that of a dishonest one. -/
inductive Published (F G2 Gt : Type)
  | honest (q : ℕ)
  | rogue (attrs : List (RogueAttr F G2 Gt))

/-- The public key itself. -/
def Published.key (pks : List (PublicKey G2 Gt)) : Published F G2 Gt → PublicKey G2 Gt
  | .honest q => (pks[q]?).getD ⟨[]⟩
  | .rogue attrs => ⟨attrs.map (RogueAttr.publish pks)⟩

/-- The names in the keys of the dishonest authorities. -/
def rogueNames (ring : List (Published F G2 Gt)) : List Str := ring.flatMap fun
  | .honest _ => []
  | .rogue attrs => attrs.map (·.name)

/-- The computation `k` finds the session element of the ciphertext made by `job` with the public keys `ring`. The rest is as in
`OpenedByCoalition`. The keys in `ring` of the dishonest authorities need no place in the view: what they are made of is in it
or can be put into `extra`, and so can all secrets of these authorities. -/
def OpenedByRogues (cm : CaseMap) (env : Env F G1 G2 Gt) (k : Formula F) (t : Tape F G1 G2 Gt)
    (auths : List (AuthJob F G1 G2 Gt)) (ring : List (Published F G2 Gt)) (holders : List Holder) (job : CpJob F G1 G2 Gt)
    (others : List (CpJob F G1 G2 Gt)) (extra : View G1 G2 Gt) (p i : ℕ) {n : ℕ} (x : (Fin n → F) × Gt × F) : Prop :=
  ∃ gk t' keys sks ct u cts, setup t = .ok (gk, t') ∧
    List.Forall₂ (fun A key => ∃ u, authgen cm env gk A.attrs A.tape = .ok (some key, u)) (vary auths p i x.2.2) keys ∧
    List.Forall₂ (fun h sk => issue cm env gk (keys.map (·.2)) h = .ok sk) holders sks ∧
    encrypt cm env gk (ring.map (Published.key (keys.map (·.1)))) job.text job.lang job.plain
      ((job.tape.setFirst x.1).setGt x.2.1) = .ok (ct, u) ∧
    List.Forall₂ (fun o c => ∃ u, encrypt cm env gk (ring.map (Published.key (keys.map (·.1)))) o.text o.lang o.plain o.tape =
      .ok (c, u)) others cts ∧
    k.eval env (View.all (extra.join (View.all (sks.map SecretKey.seen)) :: gk.seen ::
      View.all (keys.map fun key => key.1.seen) :: ct.seen :: cts.map Ciphertext.seen)) = x.2.1

/-- An element `e` as a function of the varied secret at a given place: the place it belongs to, the part that does not depend on
the secret, and the multiple of the secret. -/
structure Sym (F Gt : Type) where
  origin : Option (ℕ × ℕ)
  fixed : ℕ × ℕ → Gt
  slope : ℕ × ℕ → F

def Sym.value (E : Gt) (tag : ℕ × ℕ) (a : F) (s : Sym F Gt) : Gt := s.fixed tag + (s.slope tag * a) • E

def honestSym (E : Gt) (place : ℕ × ℕ) (σ : F) : Sym F Gt :=
  ⟨some place, fun tag => if place = tag then 0 else σ • E, fun tag => if place = tag then 1 else 0⟩

theorem honestSym_value (E : Gt) (place : ℕ × ℕ) (σ : F) (tag : ℕ × ℕ) (a : F) :
    (honestSym E place σ).value E tag a = secret tag a (place, σ) • E := by
  simp only [Sym.value, honestSym, secret]
  split <;> simp

/-- The places of the attributes of the authorities, with the secrets. -/
def attrPlaces (auths : List (AuthJob F G1 G2 Gt)) : List ((ℕ × ℕ) × F) :=
  auths.zipIdx.flatMap fun A => A.1.attrs.zipIdx.map fun x => ((A.2, x.2), A.1.tape.fr (2 * x.2))

def rogueSym (E : Gt) (auths : List (AuthJob F G1 G2 Gt)) (r : RogueAttr F G2 Gt) : Sym F Gt :=
  ⟨none, fun tag => r.base + ((attrPlaces auths).map fun x => r.coeff x.1.1 x.1.2 • (honestSym E x.1 x.2).fixed tag).sum,
    fun tag => ((attrPlaces auths).map fun x => r.coeff x.1.1 x.1.2 * (honestSym E x.1 x.2).slope tag).sum⟩

def formalKey (cm : CaseMap) (E : Gt) (g2 : G2) (auths : List (AuthJob F G1 G2 Gt)) :
    Published F G2 Gt → PublicKey G2 (Sym F Gt)
  | .honest q => match auths[q]? with
    | none => ⟨[]⟩
    | some A => ⟨A.attrs.zipIdx.map fun x =>
        ⟨cm.upper x.1, honestSym E (q, x.2) (A.tape.fr (2 * x.2)), A.tape.fr (2 * x.2 + 1) • g2⟩⟩
  | .rogue attrs => ⟨attrs.map fun r => ⟨r.name, rogueSym E auths r, r.y⟩⟩

theorem publishedE_formal (cm : CaseMap) (E : Gt) (g2 : G2) (auths : List (AuthJob F G1 G2 Gt)) (tag : ℕ × ℕ) (a : F) :
    publishedE ((formal cm auths).map (PublicKey.map (· • g2) (fun e => secret tag a e • E))) =
      (attrPlaces auths).map fun x => (x.1, (honestSym E x.1 x.2).value E tag a) := by
  have aux : ∀ {α β γ : Type} (l : List α) (f : α × ℕ → β) (g : β × ℕ → γ),
      (l.zipIdx.map f).zipIdx.map g = l.zipIdx.map fun x => g (f x, x.2) := by
    intro α β γ l f g
    apply List.ext_getElem?
    intro i
    simp only [List.getElem?_map, List.getElem?_zipIdx, zero_add, Option.map_map, Function.comp_def]
  simp only [honestSym_value, publishedE, formal, attrPlaces, List.map_map, Function.comp_def, PublicKey.map,
    List.flatMap_def, aux, List.map_flatten]

theorem sum_affine {α : Type} (E : Gt) (a : F) (c : α → F) (v : α → Gt) (s : α → F) : ∀ l : List α,
    (l.map fun x => c x • (v x + (s x * a) • E)).sum = (l.map fun x => c x • v x).sum + ((l.map fun x => c x * s x).sum * a) • E
  | [] => by simp
  | x :: l => by
    simp only [List.map_cons, List.sum_cons, sum_affine E a c v s l]
    module

/-- The public keys given to encryption, as functions of the varied secret. -/
theorem ring_eq {cm : CaseMap} {env : Env F G1 G2 Gt} {gk : GlobalKey G1 G2} {auths : List (AuthJob F G1 G2 Gt)} {p i : ℕ}
    {a : F} {pks : List (PublicKey G2 Gt)}
    (h : List.Forall₂ (fun A pk => ∃ msk u, authgen cm env gk A.attrs A.tape = .ok (some (pk, msk), u))
      (vary auths p i a) pks) (ring : List (Published F G2 Gt)) :
    ring.map (Published.key pks) = (ring.map (formalKey cm (env.pair gk.g1 gk.g2) gk.g2 auths)).map
      (PublicKey.map id (Sym.value (env.pair gk.g1 gk.g2) (p, i) a)) := by
  rw [keys_eq h, List.map_map]
  apply List.map_congr_left
  rintro (q | attrs) -
  · simp only [Published.key, formalKey, Function.comp_apply, List.getElem?_map, formal, List.getElem?_zipIdx, zero_add]
    cases auths[q]? with
    | none => rfl
    | some A =>
      simp only [Option.map_some, Option.getD_some, PublicKey.map, List.map_map, Function.comp_def, honestSym_value, id]
  · simp only [Published.key, formalKey, Function.comp_apply, PublicKey.map, List.map_map, PublicKey.mk.injEq]
    apply List.map_congr_left
    intro r _
    simp only [RogueAttr.publish, publishedE_formal, List.map_map, Function.comp_def, id, PubAttr.mk.injEq, true_and, and_true]
    simp only [Sym.value, sum_affine, rogueSym]
    module

/-- The view of a ciphertext. -/
theorem ct_seen_map {A B : Type} {cm : CaseMap} {env : Env F G1 G2 Gt} {gk : GlobalKey G1 G2} {fk : List (PublicKey A B)}
    {fy : A → G2} {fe : B → Gt} {text : Str} {lang : PolicyLanguage} {m : Bytes} {t t' : Tape F G1 G2 Gt}
    {ct : Ciphertext G2 Gt} {p : Pol} (hp : parse text lang = .ok p.toValue)
    (h : encrypt cm env gk (fk.map (PublicKey.map fy fe)) text lang m t = .ok (ct, t')) :
    (ct.seen : View G1 G2 Gt) = ⟨[],
      (found cm fk (p.leaves.map leafIdx) 0).map (fun y => t.fr (1 + draws p + draws p + y.2) • gk.g2) ++
      (found cm fk (p.leaves.map leafIdx) 0).map (fun y => t.fr (1 + draws p + draws p + y.2) • fy y.1.y +
        shareAt p 0 (dropS (1 + draws p) t.fr) y.2 • gk.g2),
      (t.gt 0 + t.fr 0 • env.pair gk.g1 gk.g2) :: (found cm fk (p.leaves.map leafIdx) 0).map (fun y =>
        shareAt p (t.fr 0) (dropS 1 t.fr) y.2 • env.pair gk.g1 gk.g2 +
          t.fr (1 + draws p + draws p + y.2) • fe y.1.e)⟩ := by
  obtain ⟨h0, h⟩ := encrypt_seen hp h
  have e : found cm (fk.map (PublicKey.map fy fe))
      (p.leaves.map leafIdx) 0 = (found cm fk (p.leaves.map leafIdx) 0).map fun y =>
        (⟨y.1.name, fe y.1.e, fy y.1.y⟩, y.2) := by
    simp only [found, List.map_filterMap, findPkAttr_map, Option.map_map, Function.comp_def]
  rw [e, List.map_map] at h
  have g := fun {α : Type} (f : Gt × G2 × G2 → α) => congrArg (List.map f) h
  simp only [List.map_map, Function.comp_def] at g
  simp only [Ciphertext.seen, g fun x => x.1, g fun x => x.2.1, g fun x => x.2.2, h0]

/-- The other ciphertexts. -/
theorem cts_move_ring (cm : CaseMap) (env : Env F G1 G2 Gt) (gk : GlobalKey G1 G2) (fk : List (PublicKey G2 (Sym F Gt)))
    (tag : ℕ × ℕ) (Y : Gt) : ∀ os : List (CpJob F G1 G2 Gt), ∃ post : List F, ∀ (a a' : F) (cs cs' : List (Ciphertext G2 Gt)),
      List.Forall₂ (fun o c => ∃ u, encrypt cm env gk (fk.map (PublicKey.map id
        (Sym.value (env.pair gk.g1 gk.g2) tag a))) o.text o.lang o.plain o.tape = .ok (c, u)) os cs →
      List.Forall₂ (fun o c => ∃ u, encrypt cm env gk (fk.map (PublicKey.map id
        (Sym.value (env.pair gk.g1 gk.g2) tag a'))) o.text o.lang o.plain o.tape = .ok (c, u)) os cs' →
      (View.all (cs.map (Ciphertext.seen (G1 := G1)))).one = (View.all (cs'.map (Ciphertext.seen (G1 := G1)))).one ∧
      (View.all (cs.map (Ciphertext.seen (G1 := G1)))).two = (View.all (cs'.map (Ciphertext.seen (G1 := G1)))).two ∧
      Moves ((a' - a) • env.pair gk.g1 gk.g2) Y (post.map fun x => (x, 0))
        (View.all (cs.map (Ciphertext.seen (G1 := G1)))).tgt (View.all (cs'.map (Ciphertext.seen (G1 := G1)))).tgt
  | [] => ⟨[], by rintro a a' _ _ ⟨⟩ ⟨⟩; exact ⟨rfl, rfl, trivial⟩⟩
  | o :: os => by
    obtain ⟨post, hpost⟩ := cts_move_ring cm env gk fk tag Y os
    by_cases hv : ∃ p : Pol, parse o.text o.lang = .ok p.toValue
    · obtain ⟨p, hp⟩ := hv
      refine ⟨(0 :: (found cm fk (p.leaves.map leafIdx) 0).map fun y =>
        o.tape.fr (1 + draws p + draws p + y.2) * y.1.e.slope tag) ++ post, ?_⟩
      rintro a a' _ _ (_ | ⟨⟨_, h⟩, l⟩) (_ | ⟨⟨_, h'⟩, l'⟩)
      obtain ⟨h1, h2, h3⟩ := hpost a a' _ _ l l'
      refine ⟨?_, ?_, ?_⟩
      · simp only [List.map_cons, View.all, View.join, h1]; rfl
      · simp only [List.map_cons, View.all, View.join, h2, ct_seen_map hp h, ct_seen_map hp h']
      · simp only [List.map_cons, View.all, View.join, ct_seen_map hp h, ct_seen_map hp h', List.map_append, List.map_map,
          Function.comp_def]
        refine Moves.append ⟨by simp, Moves.map _ fun y _ => ?_⟩ h3
        simp only [Sym.value]
        module
    · refine ⟨[], ?_⟩
      rintro a a' _ _ (_ | ⟨⟨_, h⟩, l⟩)
      exfalso
      simp only [encrypt, RM.bind_ok, RM.lift_ok_iff] at h
      obtain ⟨v, _, ⟨hv', _⟩, _⟩ := h
      obtain ⟨p, rfl, _⟩ := parse_ok hv'
      exact hv ⟨p, hv'⟩

theorem findPkAttr_mem {A B : Type} : ∀ {pks : List (PublicKey A B)} {nm : Str} {a : PubAttr A B},
    findPkAttr nm pks = some a → a.name = nm ∧ ∃ pk ∈ pks, a ∈ pk.attr
  | [], nm, a, h => by simp [findPkAttr] at h
  | pk :: pks, nm, a, h => by
    simp only [findPkAttr] at h
    cases hf : pk.attr.find? (fun a => a.name == nm) with
    | some b =>
      rw [hf] at h
      simp only [Option.some.injEq] at h
      subst h
      exact ⟨by simpa using List.find?_some hf, pk, by simp, List.mem_of_find?_eq_some hf⟩
    | none =>
      rw [hf] at h
      obtain ⟨h1, pk', h2, h3⟩ := findPkAttr_mem h
      exact ⟨h1, pk', by simp [h2], h3⟩

/-- A leaf with a public key: its name is one of a dishonest authority, or the key is that of an attribute of an honest one. -/
theorem found_ring {cm : CaseMap} {E : Gt} {g2 : G2} {auths : List (AuthJob F G1 G2 Gt)} {ring : List (Published F G2 Gt)}
    {l : List Str} {n : ℕ} {y : PubAttr G2 (Sym F Gt) × ℕ}
    (hy : y ∈ found cm (ring.map (formalKey cm E g2 auths)) l n) :
    (∃ x, l[y.2 - n]? = some x ∧ y.1.name = removeIndex (cm.upper x)) ∧ n ≤ y.2 ∧ (y.1.name ∈ rogueNames ring ∨
      ∃ q i A m, auths[q]? = some A ∧ A.attrs[i]? = some m ∧ cm.upper m = y.1.name ∧ y.1.e.slope (q, i) = 1) := by
  simp only [found, List.mem_filterMap] at hy
  obtain ⟨⟨x, i⟩, hx, hy⟩ := hy
  have hx' := List.mem_zipIdx hx
  cases hf : findPkAttr (removeIndex (cm.upper x)) (ring.map (formalKey cm E g2 auths)) with
  | none => simp [hf] at hy
  | some a =>
    simp only [hf, Option.map_some, Option.some.injEq] at hy
    subst hy
    obtain ⟨h1, pk, h2, h3⟩ := findPkAttr_mem hf
    refine ⟨⟨x, ?_, h1⟩, hx'.1, ?_⟩
    · rw [hx'.2.2, List.getElem?_eq_getElem]
    obtain ⟨P, hP, rfl⟩ := List.mem_map.1 h2
    rcases P with q | attrs
    · right
      simp only [formalKey] at h3
      cases hA : auths[q]? with
      | none => simp [hA] at h3
      | some A =>
        rw [hA] at h3
        obtain ⟨⟨m, j⟩, hm, rfl⟩ := List.mem_map.1 h3
        exact ⟨q, j, A, m, hA, (List.mem_zipIdx_iff_getElem? (x := (m, j))).1 hm, rfl, by simp [honestSym]⟩
    · left
      obtain ⟨r, hr, rfl⟩ := List.mem_map.1 h3
      exact List.mem_flatMap.2 ⟨_, hP, List.mem_map_of_mem hr⟩

open Classical in
/-- **C92, AW11, keys computed from those of others.** Dishonest authorities publish keys that may depend on those of the honest
ones, and do with any number of users a computation that may depend on all they know. If the names in their keys together with
the names requested by the users do not satisfy the policy (with every name replaced by the name under which encryption looks
for the public key), there is an attribute of an honest authority such that the computation gives the session element for at
most the fraction `2 / q` of the choices of the random numbers of the encryption, the session element and the secret of this
attribute. -/
theorem C92_rogue_lookup [BigChar F] [Fintype F] [Fintype Gt] (cm : CaseMap) (env : Env F G1 G2 Gt) (k : Formula F)
    (t : Tape F G1 G2 Gt) (hpair : env.pair (t.g1 0) (t.g2 0) ≠ 0) (auths : List (AuthJob F G1 G2 Gt))
    (ring : List (Published F G2 Gt)) (holders : List Holder) (job : CpJob F G1 G2 Gt) (p : Pol) (hp : Denotes job.text job.lang p)
    (hlen : job.text.length < 2 ^ 64)
    (hsat : (rename (fun s => removeIndex (cm.upper s)) p).sat
      ((holders.flatMap fun h => h.requests.map (·.2)) ++ rogueNames ring) = false)
    (others : List (CpJob F G1 G2 Gt)) (extra : View G1 G2 Gt) (n : ℕ)
    (hn : 1 + draws p + draws p + p.leaves.length ≤ n) :
    ∃ q i, (Finset.univ.filter (OpenedByRogues cm env k t auths ring holders job others extra q i (n := n))).card ≤
      2 * Fintype.card F ^ n * Fintype.card Gt := by
  set names := (holders.flatMap fun h => h.requests.map (·.2)) ++ rogueNames ring with hnames
  have hsub : ∀ h ∈ holders, ∀ r ∈ h.requests, r.2 ∈ names := fun h hh r hr =>
    List.mem_append_left _ (List.mem_flatMap.2 ⟨h, hh, List.mem_map_of_mem hr⟩)
  set ρ := fun s => removeIndex (cm.upper s) with hρ
  have hf : p.Fits := by
    obtain ⟨q, hq, hf, _⟩ := parse_ok hp
    rw [toValue_inj _ _ hq]; exact hf hlen
  have hf' : (rename ρ p).Fits := (arity_rename ρ _ p).2 hf
  choose δ hδ using fun d : F => hides names (rename ρ p) hf' hsat d
  set fk := formal cm auths with hfk
  set rk := ring.map (formalKey cm (env.pair (t.g1 0) (t.g2 0)) (t.g2 0) auths) with hrk
  set R := found cm rk (p.leaves.map leafIdx) 0 with hR
  set N := extra.tgt.length + (fk.flatMap fun pk => pk.attr.map fun b => b.e).length with hN
  by_cases hex : ∃ x < R.length, k.tgt (N + 1 + x) ≠ 0 ∧ ∀ y, R[x]? = some y → y.1.name ∉ names
  · obtain ⟨x, hx, hf, hnot⟩ := hex
    have hy : R[x]? = some R[x] := List.getElem?_eq_getElem hx
    set y := R[x] with hyd
    replace hnot := hnot y hy
    obtain ⟨⟨lab, hlab, -⟩, -, hor⟩ := found_ring (List.getElem_mem hx)
    rw [← hyd] at hlab hor
    obtain ⟨q, i, A, nm, hA, hnm, hup, hone⟩ := hor.resolve_left fun h => hnot (List.mem_append_right _ h)
    have hlt : y.2 < p.leaves.length := by
      have := (List.getElem?_eq_some_iff.1 hlab).1
      simpa using this
    have hlt' : 1 + draws p + draws p + y.2 < n := by omega
    have hissue : ∀ a a' : F, ∀ h ∈ holders,
        issue cm env ⟨t.g1 0, t.g2 0⟩ ((vary auths q i a).map (mskOf cm)) h =
        issue cm env ⟨t.g1 0, t.g2 0⟩ ((vary auths q i a').map (mskOf cm)) h := by
      intro a a' h hh
      refine issue_vary cm env _ auths _ _ a a' h fun A' hA' n' hn' hmem => hnot ?_
      rw [hA] at hA'
      obtain rfl := Option.some.inj hA'
      rw [hnm] at hn'
      obtain rfl := Option.some.inj hn'
      rw [← hup]
      obtain ⟨r, hr, hr'⟩ := List.mem_map.1 hmem
      exact hr' ▸ hsub h hh r hr
    refine ⟨q, i, ?_⟩
    obtain ⟨post, hpost⟩ := cts_move_ring cm env (⟨t.g1 0, t.g2 0⟩ : GlobalKey G1 G2) rk (q, i) 0 others
    set pre := extra.tgt.map (fun _ => (0 : F)) ++
      ((fk.flatMap fun pk => pk.attr.map fun b => if b.e.1 = (q, i) then (1 : F) else 0) ++ [0]) with hpre
    have hBl : extra.tgt.length + (fk.flatMap fun pk => pk.attr.map fun b =>
        if b.e.1 = (q, i) then (1 : F) else 0).length = N := by
      rw [hN]
      simp [List.length_flatMap]
    set g : (Fin n → F) → PubAttr G2 (Sym F Gt) × ℕ → F := fun f z =>
      if z.2 = y.2 then 0 else (job.tape.setFirst f).fr (1 + draws p + draws p + z.2) *
        z.1.e.slope (q, i) with hg
    refine count_slope _ ⟨1 + draws p + draws p + y.2, hlt'⟩
      (fun f => slope k.tgt 0 pre + slope k.tgt (N + 1) (R.map (g f)) + slope k.tgt (N + 1 + R.length) post) ?_
      (k.tgt (N + 1 + x)) hf ?_
    · intro f v
      have : R.map (g (Function.update f ⟨1 + draws p + draws p + y.2, hlt'⟩ v)) = R.map (g f) := by
        apply List.map_congr_left
        intro z _
        simp only [hg]
        split
        · rfl
        · rename_i hz
          congr 1
          simp only [Tape.setFirst]
          split
          · rw [Function.update_of_ne]
            intro e
            simp only [Fin.mk.injEq] at e
            omega
          · rfl
      simp only [this]
    rintro f m a a' h h'
    simp only [Finset.mem_filter, Finset.mem_univ, true_and] at h h'
    obtain ⟨gk, t', keys, sks, ct, u, cts, hs, ha, hi, he, ho, hk⟩ := h
    obtain ⟨gk', t'', keys', sks', ct', u', cts', hs', ha', hi', he', ho', hk'⟩ := h'
    obtain rfl := setup_eq hs
    obtain rfl := setup_eq hs'
    have hpk := keys_eq (pks_forall₂ ha)
    have hpk' := keys_eq (pks_forall₂ ha')
    rw [msks_eq ha] at hi
    rw [msks_eq ha'] at hi'
    have hsks : sks' = sks := by
      clear hk hk'
      have : ∀ {hs : List Holder} {s s' : List (SecretKey G1)}, (∀ h ∈ hs, h ∈ holders) →
          List.Forall₂ (fun h sk => issue cm env ⟨t.g1 0, t.g2 0⟩
            ((vary auths q i a).map (mskOf cm)) h = .ok sk) hs s →
          List.Forall₂ (fun h sk => issue cm env ⟨t.g1 0, t.g2 0⟩
            ((vary auths q i a').map (mskOf cm)) h = .ok sk) hs s' → s' = s := by
        intro hs s s' hm h1
        induction h1 generalizing s' with
        | nil => rintro ⟨⟩; rfl
        | cons h1 _ ih =>
          rintro (_ | ⟨h2, l2⟩)
          rw [ih (fun h hh => hm h (by simp [hh])) l2]
          rw [hissue a a' _ (hm _ (by simp))] at h1
          rw [Res.ok.inj (h1.symm.trans h2)]
      exact this (fun _ h => h) hi hi'
    subst hsks
    rw [ring_eq (pks_forall₂ ha)] at he ho
    rw [ring_eq (pks_forall₂ ha')] at he' ho'
    rw [show keys.map (fun key => (key.1.seen : View G1 G2 Gt)) = (keys.map (·.1)).map PublicKey.seen by simp, hpk] at hk
    rw [show keys'.map (fun key => (key.1.seen : View G1 G2 Gt)) = (keys'.map (·.1)).map PublicKey.seen by simp, hpk'] at hk'
    obtain ⟨o1, o2, o3⟩ := hpost a a' _ _ ho ho'
    obtain ⟨f1, f2, f3⟩ := formal_move (G1 := G1) cm env (⟨t.g1 0, t.g2 0⟩ : GlobalKey G1 G2) (q, i) a a' 0 fk
    have f1' := (formal_move (G1 := G1) cm env (⟨t.g1 0, t.g2 0⟩ : GlobalKey G1 G2) (q, i) a' a 0 fk).1
    have hc := ct_seen_map hp he
    have hc' := ct_seen_map hp he'
    obtain ⟨s2, s3⟩ := sks_seen (G2 := G2) (Gt := Gt) sks'
    have hc3 : Moves ((a' - a) • env.pair (t.g1 0) (t.g2 0)) 0
        (((0 : F), (0 : F)) :: R.map fun z => (g f z + (if z.2 = y.2 then 1 else 0) *
          f ⟨1 + draws p + draws p + y.2, hlt'⟩, 0)) (ct.seen : View G1 G2 Gt).tgt (ct'.seen : View G1 G2 Gt).tgt := by
      rw [hc, hc']
      refine ⟨by simp, Moves.map _ fun z hz => ?_⟩
      by_cases hzy : z.2 = y.2
      · have : z = y := by
          have hn := nodup_found cm rk (p.leaves.map leafIdx) 0
          rw [← hR] at hn
          exact List.inj_on_of_nodup_map hn hz (List.getElem_mem hx) hzy
        simp only [this, if_true, Sym.value, hone, hg, fr_setFirst _ _ _ _ hlt']
        module
      · have hT : ((job.tape.setFirst f).setGt m).fr (1 + draws p + draws p + z.2) =
            (job.tape.setFirst f).fr (1 + draws p + draws p + z.2) := rfl
        simp only [hzy, if_false, Sym.value, hg, hT]
        module
    have hev := eval_sub env k (v := View.all (extra.join (View.all (sks'.map SecretKey.seen)) ::
        GlobalKey.seen ⟨t.g1 0, t.g2 0⟩ ::
        View.all ((fk.map (PublicKey.map (· • t.g2 0) (fun e => secret (q, i) a' e • env.pair (t.g1 0) (t.g2 0)))).map
          PublicKey.seen) :: ct'.seen :: cts'.map Ciphertext.seen))
      (w := View.all (extra.join (View.all (sks'.map SecretKey.seen)) :: GlobalKey.seen ⟨t.g1 0, t.g2 0⟩ ::
        View.all ((fk.map (PublicKey.map (· • t.g2 0) (fun e => secret (q, i) a e • env.pair (t.g1 0) (t.g2 0)))).map
          PublicKey.seen) :: ct.seen :: cts.map Ciphertext.seen))
      (by simp only [View.all, View.join, o1, f1, f1', hc, hc'])
      (by simp only [View.all, View.join, o2, f2, hc, hc'])
    have hk2 := hk'.trans hk.symm
    rw [← sub_eq_zero] at hk2
    have hk3 := hev.symm.trans hk2
    have hm := (Moves.refl (F := F) ((a' - a) • env.pair (t.g1 0) (t.g2 0)) 0 extra.tgt).append
      ((show Moves _ _ ([] : List (F × F)) [] [] from trivial).append (f3.append (hc3.append o3)))
    have hw := hm.weigh k.tgt 0
    simp only [View.all, View.join, s3, List.append_nil] at hk3
    have hw2 := hw.symm.trans hk3
    rw [slope_parts, slope_affine, hBl] at hw2
    have hn := nodup_found cm rk (p.leaves.map leafIdx) 0
    rw [← hR] at hn
    rw [slope_indicator k.tgt R (N + 1) x y hn hy, ← hpre] at hw2
    rw [smul_zero, add_zero, smul_smul, smul_eq_zero] at hw2
    rw [← hw2.resolve_right hpair]
    ring
  · push Not at hex
    refine ⟨auths.length, 0, ?_⟩
    set S := Finset.univ.filter (OpenedByRogues cm env k t auths ring holders job others extra auths.length 0 (n := n)) with hS
    have h0 : 0 < n := by omega
    have main : ∀ (f f' : Fin n → F) (m m' : Gt) (a : F), moved (draws p) δ f h0 = moved (draws p) δ f' h0 →
        (f, m, a) ∈ S → (f', m', a) ∈ S →
        k.tgt N • ((m' - m) + (f' ⟨0, h0⟩ - f ⟨0, h0⟩) • env.pair (t.g1 0) (t.g2 0)) = m' - m := by
      intro f f' m m' a hmv h h'
      simp only [hS, Finset.mem_filter, Finset.mem_univ, true_and] at h h'
      obtain ⟨gk, t', keys, sks, ct, u, cts, hs, ha, hi, he, ho, hk⟩ := h
      obtain ⟨gk', t'', keys', sks', ct', u', cts', hs', ha', hi', he', ho', hk'⟩ := h'
      obtain rfl := setup_eq hs
      obtain rfl := setup_eq hs'
      have hkeys : keys' = keys := forall₂_det (by
        rintro o c c' ⟨_, h⟩ ⟨_, h'⟩
        have := h.symm.trans h'
        simp only [Res.ok.injEq, Prod.mk.injEq, Option.some.injEq] at this
        exact this.1) ha' ha
      subst hkeys
      have hsks : sks' = sks := forall₂_det (by
        rintro o c c' h h'
        exact Res.ok.inj (h.symm.trans h')) hi' hi
      subst hsks
      have hcts : cts' = cts := forall₂_det (by
        rintro o c c' ⟨_, h⟩ ⟨_, h'⟩
        have := h.symm.trans h'
        simp only [Res.ok.injEq, Prod.mk.injEq] at this
        exact this.1) ho' ho
      subst hcts
      have hpk := keys_eq (pks_forall₂ ha)
      rw [← hfk] at hpk
      rw [ring_eq (pks_forall₂ ha)] at he he'
      have hc := ct_seen_map hp he
      have hc' := ct_seen_map hp he'
      rw [← hR] at hc hc'
      have hlate : ∀ i, 1 + draws p ≤ i → (job.tape.setFirst f).fr i = (job.tape.setFirst f').fr i := by
        intro i hi
        simp only [Tape.setFirst]
        split
        · rename_i hin
          have := congrFun hmv ⟨i, hin⟩
          simpa [moved, show i ≠ 0 by omega, show ¬i - 1 < draws p by omega] using this
        · rfl
      have hT : ∀ (f : Fin n → F) (m : Gt) i, ((job.tape.setFirst f).setGt m).fr i = (job.tape.setFirst f).fr i := fun _ _ _ => rfl
      have hW : ∀ z, shareAt p 0 (dropS (1 + draws p) ((job.tape.setFirst f').setGt m').fr) z =
          shareAt p 0 (dropS (1 + draws p) ((job.tape.setFirst f).setGt m).fr) z := by
        intro z
        rw [shareAt_eq, shareAt_eq, shareVals_congr p 0 (ω' := dropS (1 + draws p) ((job.tape.setFirst f).setGt m).fr)]
        intro i _
        simp only [dropS, hT]
        exact (hlate _ (by omega)).symm
      have hr : ∀ z, (job.tape.setFirst f').fr (1 + draws p + draws p + z) = (job.tape.setFirst f).fr (1 + draws p + draws p + z) :=
        fun z => (hlate _ (by omega)).symm
      have two : (ct'.seen : View G1 G2 Gt).two = (ct.seen : View G1 G2 Gt).two := by
        rw [hc, hc']
        simp only [hT, hW, hr]
      have toZero : ∀ (f : Fin n → F) (m : Gt) (i : ℕ) (l : Str × ℕ), (rename ρ p).leaves[i]? = some l → l.1 ∈ names →
          shareAt p (((job.tape.setFirst f).setGt m).fr 0) (dropS 1 ((job.tape.setFirst f).setGt m).fr) i =
          ((shareVals p 0 fun i => if h : i + 1 < n then moved (draws p) δ f h0 ⟨i + 1, h⟩ else 0)[i]?).getD 0 := by
        intro f m i l hl hmem
        rw [shareAt_eq, fr_setFirst _ _ _ _ h0]
        have h1 := hδ (-f ⟨0, h0⟩) (f ⟨0, h0⟩) (dropS 1 ((job.tape.setFirst f).setGt m).fr) i l hl hmem
        rw [shareVals_rename, shareVals_rename, add_neg_cancel] at h1
        rw [h1, shareVals_congr p 0]
        intro j hj
        have hj' : j + 1 < n := by omega
        simp only [Pi.add_apply, dropS, Nat.add_comm 1 j, fr_setFirst _ _ _ _ hj', hj', dif_pos, moved]
        simp [hj]
      have hcomp : ∀ i y, R[i]? = some y → k.tgt (N + 1 + i) = 0 ∨
          shareAt p (((job.tape.setFirst f').setGt m').fr 0) (dropS 1 ((job.tape.setFirst f').setGt m').fr) y.2 =
          shareAt p (((job.tape.setFirst f).setGt m).fr 0) (dropS 1 ((job.tape.setFirst f).setGt m).fr) y.2 := by
        intro i y hi
        by_cases hk0 : k.tgt (N + 1 + i) = 0
        · exact Or.inl hk0
        right
        obtain ⟨y', hy', hmem⟩ := hex i (List.getElem?_eq_some_iff.1 hi).1 hk0
        rw [hi] at hy'
        obtain rfl := Option.some.inj hy'
        obtain ⟨⟨lab, hlab, hname⟩, -, -⟩ := found_ring (List.mem_of_getElem? hi)
        rw [Nat.sub_zero, List.getElem?_map] at hlab
        cases hl : p.leaves[y.2]? with
        | none => simp [hl] at hlab
        | some l =>
          rw [hl] at hlab
          obtain rfl := Option.some.inj hlab
          rw [removeIndex_upper_leaf] at hname
          have hl' : (rename ρ p).leaves[y.2]? = some (ρ l.1, l.2) := by
            rw [leaves_rename, List.getElem?_map, hl]; rfl
          have hm' : ρ l.1 ∈ names := by rw [hρ]; dsimp only; rw [← hname]; exact hmem
          rw [toZero f' m' _ _ hl' hm', toZero f m _ _ hl' hm', hmv]
      have hev := eval_sub env k (v := View.all (extra.join (View.all (sks'.map SecretKey.seen)) ::
          GlobalKey.seen ⟨t.g1 0, t.g2 0⟩ ::
          View.all (keys'.map fun key => key.1.seen) :: ct'.seen :: cts'.map Ciphertext.seen))
        (w := View.all (extra.join (View.all (sks'.map SecretKey.seen)) :: GlobalKey.seen ⟨t.g1 0, t.g2 0⟩ ::
          View.all (keys'.map fun key => key.1.seen) :: ct.seen :: cts'.map Ciphertext.seen))
        (by simp only [View.all, View.join, hc, hc']) (by simp only [View.all, View.join, two])
      have hk2 : _ - _ = m' - m := congrArg₂ (· - ·) hk' hk
      have hk3 := hev.symm.trans hk2
      rw [show keys'.map (fun key => (key.1.seen : View G1 G2 Gt)) = (keys'.map (·.1)).map PublicKey.seen by simp, hpk] at hk3
      have hlenK := keys_length (G1 := G1) (G2 := G2) (· • t.g2 0) (fun e => secret (auths.length, 0) a e • env.pair (t.g1 0) (t.g2 0)) fk
      have hl : (ct'.seen : View G1 G2 Gt).tgt.length = (ct.seen : View G1 G2 Gt).tgt.length := by
        rw [hc, hc']; simp
      obtain ⟨s2, s3⟩ := sks_seen (G2 := G2) (Gt := Gt) sks'
      simp only [View.all, View.join, weigh_append, hl, hlenK, zero_add, GlobalKey.seen, weigh, List.length_nil, add_zero,
        s3, List.append_nil, ← hN] at hk3
      rw [hc, hc'] at hk3
      simp only [weigh] at hk3
      have hsame : weigh k.tgt (N + 1) (R.map fun y => shareAt p (((job.tape.setFirst f').setGt m').fr 0)
          (dropS 1 ((job.tape.setFirst f').setGt m').fr) y.2 • env.pair (t.g1 0) (t.g2 0) +
          ((job.tape.setFirst f').setGt m').fr (1 + draws p + draws p + y.2) • Sym.value (env.pair (t.g1 0) (t.g2 0)) (auths.length, 0) a y.1.e) =
        weigh k.tgt (N + 1) (R.map fun y => shareAt p (((job.tape.setFirst f).setGt m).fr 0)
          (dropS 1 ((job.tape.setFirst f).setGt m).fr) y.2 • env.pair (t.g1 0) (t.g2 0) +
          ((job.tape.setFirst f).setGt m).fr (1 + draws p + draws p + y.2) • Sym.value (env.pair (t.g1 0) (t.g2 0)) (auths.length, 0) a y.1.e) := by
        refine weigh_congr k.tgt (N + 1) R _ _ fun i y hi => (hcomp i y hi).imp id fun h => ?_
        rw [h, hT, hT, hr]
        rfl
      rw [hsame] at hk3
      rw [fr_setFirst _ _ _ _ h0, fr_setFirst _ _ _ _ h0] at hk3
      simp only [Tape.setGt, if_true] at hk3
      refine Eq.trans ?_ hk3
      module
    have hq : Fintype.card F ≤ Fintype.card Gt :=
      Fintype.card_le_of_injective _ (smul_left_injective F hpair)
    by_cases hN0 : k.tgt N = 0
    · have : S.card ≤ Fintype.card ((Fin n → F) × F) := by
        refine Finset.card_le_card_of_injOn (t := Finset.univ) (fun x => (x.1, x.2.2)) (fun _ _ => Finset.mem_univ _) ?_
        rintro ⟨f, m, a⟩ h ⟨f', m', a'⟩ h' e
        simp only [Prod.mk.injEq] at e
        obtain ⟨rfl, rfl⟩ := e
        have := main f f m m' a rfl h h'
        rw [hN0, zero_smul, eq_comm, sub_eq_zero] at this
        rw [this]
      refine this.trans ?_
      simp only [Fintype.card_prod, Fintype.card_fun, Fintype.card_fin]
      refine (Nat.mul_le_mul_left (Fintype.card F ^ n) hq).trans ?_
      rw [mul_assoc]
      exact Nat.le_mul_of_pos_left _ two_pos
    · have : S.card ≤ Fintype.card ((Fin n → F) × Gt) := by
        refine Finset.card_le_card_of_injOn (t := Finset.univ)
          (fun x => (Function.update (moved (draws p) δ x.1 h0) ⟨0, h0⟩ x.2.2, x.2.1)) (fun _ _ => Finset.mem_univ _) ?_
        rintro ⟨f, m, a⟩ h ⟨f', m', a'⟩ h' e
        simp only [Prod.mk.injEq] at e
        obtain ⟨e, rfl⟩ := e
        have ha : a = a' := by simpa using congrFun e ⟨0, h0⟩
        subst ha
        have hmv : moved (draws p) δ f h0 = moved (draws p) δ f' h0 := by
          funext i
          by_cases hi : i = ⟨0, h0⟩
          · subst hi; simp [moved]
          · simpa [hi] using congrFun e i
        have h00 := main f f' m m a hmv h h'
        simp only [sub_self, zero_add, smul_eq_zero, hN0, hpair, false_or, or_false, sub_eq_zero] at h00
        have hff : f = f' := by
          funext i
          have := congrFun hmv i
          simp only [moved, h00] at this
          exact add_right_cancel this
        rw [hff]
      refine this.trans ?_
      simp only [Fintype.card_prod, Fintype.card_fun, Fintype.card_fin]
      rw [mul_assoc]
      exact Nat.le_mul_of_pos_left _ two_pos

open Classical in
/-- **C92, AW11, keys computed from those of others, partial: names without underscore.** As `C92_rogue_lookup`, with the policy
read as it is written (in upper case). (Full claim: for all attribute names; false already without dishonest authorities, see
`C84_violated`.) -/
theorem C92_rogue_partial [BigChar F] [Fintype F] [Fintype Gt] (cm : CaseMap) (env : Env F G1 G2 Gt) (k : Formula F)
    (t : Tape F G1 G2 Gt) (hpair : env.pair (t.g1 0) (t.g2 0) ≠ 0) (auths : List (AuthJob F G1 G2 Gt))
    (ring : List (Published F G2 Gt)) (holders : List Holder) (job : CpJob F G1 G2 Gt) (p : Pol) (hp : Denotes job.text job.lang p)
    (hlen : job.text.length < 2 ^ 64) (hu : ∀ l ∈ p.leaves, '_' ∉ l.1)
    (hsat : (rename cm.upper p).sat ((holders.flatMap fun h => h.requests.map (·.2)) ++ rogueNames ring) = false)
    (others : List (CpJob F G1 G2 Gt)) (extra : View G1 G2 Gt) (n : ℕ)
    (hn : 1 + draws p + draws p + p.leaves.length ≤ n) :
    ∃ q i, (Finset.univ.filter (OpenedByRogues cm env k t auths ring holders job others extra q i (n := n))).card ≤
      2 * Fintype.card F ^ n * Fintype.card Gt := by
  refine C92_rogue_lookup cm env k t hpair auths ring holders job p hp hlen ?_ others extra n hn
  rw [← hsat]
  congr 1
  refine rename_congr p fun l hl => removeIndex_of_not_mem ?_
  intro hmem
  obtain ⟨c, hc, hc'⟩ := List.mem_flatMap.1 hmem
  exact hu l hl (cm.only_underscore c hc' ▸ hc)

/-- Example for C92: a dishonest authority publishes for its attribute `A` the element of the honest attribute `C`, subtracted from
another element; `A` and the attribute `B` of a user do not satisfy a policy that needs `C`. -/
def rogueCase : List (Published Fr Fr Fr) := [.rogue [⟨['A'], 5, fun q i => if q = 0 ∧ i = 1 then -1 else 0, 3⟩], .honest 0]

example : toyEnv.pair (toyTape.g1 0) (toyTape.g2 0) ≠ 0 ∧
    Denotes (chars% "\"A\" and \"C\"") .human (.gate .and [.leaf ['A'] 2, .leaf ['C'] 10]) ∧
    rogueNames rogueCase = [['A']] ∧
    (rename asciiCase.upper (.gate .and [.leaf ['A'] 2, .leaf ['C'] 10])).sat ([['B']] ++ [['A']]) = false ∧
    (rename asciiCase.upper (.gate .and [.leaf ['A'] 2, .leaf ['C'] 10])).sat ([['C']] ++ [['A']]) = true ∧
    (rogueCase.map (Published.key [⟨[⟨['B'], 7, 8⟩, ⟨['C'], 9, 10⟩]⟩])).map (fun pk => pk.attr.map fun x => (x.name, x.e, x.y)) =
      [[(['A'], 5 - 9, 3)], [(['B'], 7, 8), (['C'], 9, 10)]] :=
  ⟨by decide +kernel, rfl, by decide +kernel, by decide +kernel, by decide +kernel, by decide +kernel⟩

end Aw11
end Rabe
