import Verif.Props.Outsider
import Verif.Props.OutcomeAw11

/-!
# C77 for AW11

The authorities have independent secrets. The values that are varied are the secret of one attribute, the random exponent
of one component of the ciphertext, the encryption secret and the session element.
-/

set_option linter.unusedSectionVars false

namespace Rabe

variable {F G1 G2 Gt : Type} [Field F] [DecidableEq F] [AddCommGroup G1] [Module F G1]
  [AddCommGroup G2] [Module F G2] [AddCommGroup Gt] [Module F Gt]

open Classical in
theorem count_line {F P : Type} [Field F] [Fintype F] [Fintype P] (S : Finset (F × P × F)) (c₁ c₂ : F) (hc : c₂ ≠ 0)
    (h : ∀ r y a a', (r, y, a) ∈ S → (r, y, a') ∈ S → (c₁ + c₂ * r) * (a' - a) = 0) :
    S.card ≤ 2 * Fintype.card F * Fintype.card P := by
  have : S.card ≤ Fintype.card F * Fintype.card P + Fintype.card (P × F) := by
    apply card_fibres_but S _ (-c₁ / c₂)
    intro s hs
    have hne : c₁ + c₂ * s ≠ 0 := by
      intro h0
      apply hs
      rw [eq_div_iff hc]; linear_combination h0
    refine le_trans (card_fibres _ 1 fun m => ?_) (by simp)
    apply Finset.card_le_one.2
    intro a h1 a' h2
    simp only [Finset.mem_filter, Finset.mem_univ, true_and] at h1 h2
    have := h s m a a' h1 h2
    simp only [mul_eq_zero, hne, false_or, sub_eq_zero] at this
    exact this.symm
  refine this.trans (le_of_eq ?_)
  rw [Fintype.card_prod]; ring

/-- The coefficient of one element in a list of elements with different second components. -/
theorem slope_indicator {α : Type} (f : ℕ → F) : ∀ (l : List (α × ℕ)) (n i : ℕ) (y : α × ℕ), (l.map (·.2)).Nodup →
    l[i]? = some y → slope f n (l.map fun x => if x.2 = y.2 then (1 : F) else 0) = f (n + i)
  | [], _, _, _, _, h => by simp at h
  | x :: l, n, 0, y, hn, h => by
    simp only [List.getElem?_cons_zero, Option.some.injEq] at h
    subst h
    simp only [List.map_cons, List.nodup_cons] at hn
    rw [List.map_cons, slope, if_pos rfl, List.map_congr_left (g := fun _ => (0 : F)), slope_zero]
    · simp
    · intro z hz
      rw [if_neg]
      rintro e
      exact hn.1 (e ▸ List.mem_map_of_mem hz)
  | x :: l, n, i + 1, y, hn, h => by
    simp only [List.getElem?_cons_succ] at h
    simp only [List.map_cons, List.nodup_cons] at hn
    rw [List.map_cons, slope, if_neg, slope_indicator f l (n + 1) i y hn.2 h]
    · rw [show n + 1 + i = n + (i + 1) by omega]; simp
    · rintro e
      exact hn.1 (e ▸ List.mem_map_of_mem (List.mem_of_getElem? h))

theorem slope_affine {α : Type} (f : ℕ → F) (g h : α → F) (x : F) : ∀ (n : ℕ) (l : List α),
    slope f n (l.map fun y => g y + h y * x) = slope f n (l.map g) + slope f n (l.map h) * x
  | _, [] => by simp [slope]
  | n, y :: l => by
    simp only [List.map_cons, slope, slope_affine f g h x (n + 1) l]; ring

theorem slope_parts {α β : Type} (f : ℕ → F) (A : List α) (B : List F) (R : List β) (h : β → F) (post : List F) :
    slope f 0 ((A.map (fun _ => ((0 : F), (0 : F))) ++ ([] ++ (B.map (fun x => (x, (0 : F))) ++
      (((0, 0) :: R.map fun z => (h z, 0)) ++ post.map fun x => (x, 0))))).map (fun x : F × F => x.1)) =
    slope f 0 (A.map (fun _ => (0 : F)) ++ (B ++ [0])) + slope f (A.length + B.length + 1) (R.map h) +
      slope f (A.length + B.length + 1 + R.length) post := by
  have e : (A.map (fun _ => ((0 : F), (0 : F))) ++ ([] ++ (B.map (fun x => (x, (0 : F))) ++
      (((0, 0) :: R.map fun z => (h z, 0)) ++ post.map fun x => (x, 0))))).map (fun x : F × F => x.1) =
      (A.map (fun _ => (0 : F)) ++ (B ++ [0])) ++ (R.map h ++ post) := by
    simp [Function.comp_def]
  rw [e, slope_append, slope_append f _ (R.map h)]
  simp only [List.length_append, List.length_map, List.length_singleton, zero_add, add_assoc]

theorem weigh_zero {Gt : Type} [AddCommGroup Gt] [Module F Gt] (f : ℕ → F) : ∀ (n : ℕ) (l : List Gt),
    (∀ i < l.length, f (n + i) = 0) → weigh f n l = 0
  | _, [], _ => rfl
  | n, x :: l, h => by
    have h0 : f n = 0 := h 0 (by simp)
    rw [weigh, weigh_zero f (n + 1) l fun i hi => by
      have := h (i + 1) (by simpa using hi)
      rwa [show n + 1 + i = n + (i + 1) by omega], h0]
    simp

theorem forall₂_eq_map {α β : Type} {R : α → β → Prop} {h : α → β} (hR : ∀ a b, R a b → b = h a) :
    ∀ {l : List α} {m : List β}, List.Forall₂ R l m → m = l.map h
  | _, _, .nil => rfl
  | _, _, .cons r t => by rw [List.map_cons, ← hR _ _ r, forall₂_eq_map hR t]

theorem forall₂_det {α β : Type} {R : α → β → Prop} (hR : ∀ a b c, R a b → R a c → b = c) :
    ∀ {l : List α} {m n : List β}, List.Forall₂ R l m → List.Forall₂ R l n → m = n
  | _, _, _, .nil, .nil => rfl
  | _, _, _, .cons r t, .cons s u => by rw [hR _ _ _ r s, forall₂_det hR t u]

namespace Aw11

/-- The group elements of the global key, `/repo/src/schemes/aw11/mod.rs:50-53`. -/
def GlobalKey.seen (gk : GlobalKey G1 G2) : View G1 G2 Gt := ⟨[gk.g1], [gk.g2], []⟩

/-- The group elements of a public key, `/repo/src/schemes/aw11/mod.rs:59-61`. -/
def PublicKey.seen (pk : PublicKey G2 Gt) : View G1 G2 Gt := ⟨[], pk.attr.map (·.y), pk.attr.map (·.e)⟩

/-- The group elements of a ciphertext, `/repo/src/schemes/aw11/mod.rs:75-80`. -/
def Ciphertext.seen (ct : Ciphertext G2 Gt) : View G1 G2 Gt :=
  ⟨[], ct.c.map (·.c2) ++ ct.c.map (·.c3), ct.c0 :: ct.c.map (·.c1)⟩

/-- One authority: its attributes and the random numbers of its key. -/
structure AuthJob (F G1 G2 Gt : Type) where
  attrs : List Str
  tape : Tape F G1 G2 Gt

/-- The authorities, with another secret for attribute `i` of authority `p`. -/
def vary (auths : List (AuthJob F G1 G2 Gt)) (p i : ℕ) (a : F) : List (AuthJob F G1 G2 Gt) :=
  auths.zipIdx.map fun A => if A.2 = p then ⟨A.1.attrs, A.1.tape.setFr (2 * i) a⟩ else A.1

/-- The computation `k` finds the session element of the ciphertext made by `job`. The varied values are random number
`j` of the encryption, its secret, the session element and the secret of attribute `i` of authority `p`. -/
def Opened (cm : CaseMap) (env : Env F G1 G2 Gt) (k : Formula F) (t : Tape F G1 G2 Gt) (auths : List (AuthJob F G1 G2 Gt))
    (job : CpJob F G1 G2 Gt) (others : List (CpJob F G1 G2 Gt)) (extra : View G1 G2 Gt) (p i j : ℕ)
    (x : F × (F × Gt) × F) : Prop :=
  ∃ gk t' pks ct u cts, setup t = .ok (gk, t') ∧
    List.Forall₂ (fun A pk => ∃ msk u, authgen cm env gk A.attrs A.tape = .ok (some (pk, msk), u)) (vary auths p i x.2.2) pks ∧
    encrypt cm env gk pks job.text job.lang job.plain (((job.tape.setFr j x.1).setFr 0 x.2.1.1).setGt x.2.1.2) = .ok (ct, u) ∧
    List.Forall₂ (fun o c => ∃ u, encrypt cm env gk pks o.text o.lang o.plain o.tape = .ok (c, u)) others cts ∧
    k.eval env (View.all (extra :: gk.seen :: View.all (pks.map PublicKey.seen) :: ct.seen :: cts.map Ciphertext.seen)) = x.2.1.2

/-- A public key whose elements are given by `y` and `e`. -/
def PublicKey.map {A B : Type} (fy : A → G2) (fe : B → Gt) (pk : PublicKey A B) : PublicKey G2 Gt :=
  ⟨pk.attr.map fun a => ⟨a.name, fe a.e, fy a.y⟩⟩

theorem findPkAttr_map {A B : Type} (fy : A → G2) (fe : B → Gt) (n : Str) : ∀ pks : List (PublicKey A B),
    findPkAttr n (pks.map (PublicKey.map fy fe)) = (findPkAttr n pks).map fun a => ⟨a.name, fe a.e, fy a.y⟩
  | [] => rfl
  | pk :: pks => by
    simp only [List.map_cons, findPkAttr, PublicKey.map, List.find?_map, Function.comp_def]
    cases pk.attr.find? (fun a => a.name == n) with
    | none => simpa using findPkAttr_map fy fe n pks
    | some a => simp

/-- The public keys: every attribute with its place and its two secrets. -/
def formal (cm : CaseMap) (auths : List (AuthJob F G1 G2 Gt)) : List (PublicKey F ((ℕ × ℕ) × F)) :=
  auths.zipIdx.map fun A => ⟨A.1.attrs.zipIdx.map fun x =>
    ⟨cm.upper x.1, ((A.2, x.2), A.1.tape.fr (2 * x.2)), A.1.tape.fr (2 * x.2 + 1)⟩⟩

/-- The secret of an attribute when the one at `tag` is replaced. -/
def secret (tag : ℕ × ℕ) (a : F) (e : (ℕ × ℕ) × F) : F := if e.1 = tag then a else e.2

theorem mapL_authgen (cm : CaseMap) (env : Env F G1 G2 Gt) (gk : GlobalKey G1 G2) : ∀ (l : List Str) (n : ℕ)
    (t t' : Tape F G1 G2 Gt) (c : List (PubAttr G2 Gt × MskAttr F)), RM.mapL (authgenAttr cm env gk) l t = .ok (c, t') →
      c.map (·.1) = (l.zipIdx n).map fun x => ⟨cm.upper x.1, t.fr (2 * (x.2 - n)) • env.pair gk.g1 gk.g2,
        t.fr (2 * (x.2 - n) + 1) • gk.g2⟩
  | [], n, t, t', c, h => by
    have h' : (pure [] : RM F G1 G2 Gt _) t = .ok (c, t') := h
    rw [(RM.pure_ok.1 h').1]; rfl
  | a :: l, n, t, t', c, h => by
    have h' : (authgenAttr cm env gk a >>= fun y => RM.mapL (authgenAttr cm env gk) l >>= fun ys => pure (y :: ys)) t =
      .ok (c, t') := h
    simp only [RM.bind_ok, authgenAttr, RM.genFr, RM.pure_ok, Res.ok.injEq, Prod.mk.injEq] at h'
    obtain ⟨_, _, ⟨_, _, ⟨rfl, rfl⟩, _, _, ⟨rfl, rfl⟩, rfl, rfl⟩, ys, _, hys, rfl, rfl⟩ := h'
    simp only [List.map_cons, List.zipIdx_cons, mapL_authgen cm env gk l (n + 1) _ _ _ hys]
    congr 1
    · simp [dropS]
    · apply List.map_congr_left
      intro x hx
      have hx := (List.mem_zipIdx hx).1
      simp only [dropS]
      rw [show 1 + (1 + 2 * (x.2 - (n + 1))) = 2 * (x.2 - n) by omega,
        show 1 + (1 + (2 * (x.2 - (n + 1)) + 1)) = 2 * (x.2 - n) + 1 by omega]

theorem authgen_attr {cm : CaseMap} {env : Env F G1 G2 Gt} {gk : GlobalKey G1 G2} {l : List Str} {t u : Tape F G1 G2 Gt}
    {pk : PublicKey G2 Gt} {msk : MasterKey F} (h : authgen cm env gk l t = .ok (some (pk, msk), u)) :
    pk.attr = l.zipIdx.map fun x => ⟨cm.upper x.1, t.fr (2 * x.2) • env.pair gk.g1 gk.g2, t.fr (2 * x.2 + 1) • gk.g2⟩ := by
  simp only [authgen] at h
  split at h
  · simp [RM.pure_ok] at h
  · simp only [RM.bind_ok, RM.pure_ok, Option.some.injEq, Prod.mk.injEq] at h
    obtain ⟨c, _, hl, ⟨rfl, rfl⟩, rfl⟩ := h
    exact mapL_authgen cm env gk _ 0 _ _ _ hl

theorem keys_eq {cm : CaseMap} {env : Env F G1 G2 Gt} {gk : GlobalKey G1 G2} {auths : List (AuthJob F G1 G2 Gt)} {p i : ℕ}
    {a : F} {pks : List (PublicKey G2 Gt)}
    (h : List.Forall₂ (fun A pk => ∃ msk u, authgen cm env gk A.attrs A.tape = .ok (some (pk, msk), u))
      (vary auths p i a) pks) :
    pks = (formal cm auths).map (PublicKey.map (· • gk.g2) (fun e => secret (p, i) a e • env.pair gk.g1 gk.g2)) := by
  rw [vary, List.forall₂_map_left_iff] at h
  rw [formal, List.map_map]
  refine forall₂_eq_map ?_ h
  rintro ⟨A, q⟩ pk ⟨msk, u, h⟩
  have := authgen_attr h
  obtain ⟨l⟩ := pk
  replace this : l = _ := this
  simp only [PublicKey.map, Function.comp_def, List.map_map, PublicKey.mk.injEq]
  rw [this]
  by_cases hq : q = p
  · simp only [hq, if_true, Tape.setFr]
    apply List.map_congr_left
    intro x hx
    simp only [secret, Prod.mk.injEq, true_and]
    congr 2
    · simp
    · rw [if_neg (by omega)]
  · simp only [hq, if_false]
    apply List.map_congr_left
    intro x hx
    simp [secret, hq]

/-- The components of a ciphertext: the key and the position of the leaf, for the leaves with a key. -/
def found {A B : Type} (cm : CaseMap) (pks : List (PublicKey A B)) (l : List Str) (n : ℕ) : List (PubAttr A B × ℕ) :=
  (l.zipIdx n).filterMap fun x => (findPkAttr (removeIndex (cm.upper x.1)) pks).map fun a => (a, x.2)

theorem mapL_encShare (cm : CaseMap) (env : Env F G1 G2 Gt) (gk : GlobalKey G1 G2) (pks : List (PublicKey G2 Gt))
    (wS : List (Str × F)) : ∀ (xs : List (Str × F)) (n : ℕ) (t t' : Tape F G1 G2 Gt) (c : List (Option (CtAttr G2 Gt))),
      RM.mapL (encShare cm env gk pks wS) (xs.zipIdx n) t = .ok (c, t') →
      (c.filterMap id).map (fun y => (y.c1, y.c2, y.c3)) = (found cm pks (xs.map (·.1)) n).map fun y =>
        (((xs[y.2 - n]?.map (·.2)).getD 0) • env.pair gk.g1 gk.g2 + t.fr (y.2 - n) • y.1.e, t.fr (y.2 - n) • gk.g2,
          t.fr (y.2 - n) • y.1.y + ((wS[y.2]?.map (·.2)).getD 0) • gk.g2)
  | [], n, t, t', c, h => by
    have h' : (pure [] : RM F G1 G2 Gt _) t = .ok (c, t') := h
    rw [(RM.pure_ok.1 h').1]; rfl
  | x :: xs, n, t, t', c, h => by
    have h' : (encShare cm env gk pks wS (x, n) >>= fun y => RM.mapL (encShare cm env gk pks wS) (xs.zipIdx (n + 1)) >>=
      fun ys => pure (y :: ys)) t = .ok (c, t') := h
    simp only [RM.bind_ok, encShare, RM.genFr, RM.pure_ok, Res.ok.injEq, Prod.mk.injEq] at h'
    obtain ⟨o, t1, ⟨_, _, ⟨rfl, rfl⟩, ho⟩, ys, _, hys, rfl, rfl⟩ := h'
    have ih := mapL_encShare cm env gk pks wS xs (n + 1) _ _ _ hys
    have step : ∀ y ∈ found cm pks (xs.map (·.1)) (n + 1), y.2 - n = y.2 - (n + 1) + 1 := by
      intro y hy
      simp only [found, List.mem_filterMap] at hy
      obtain ⟨z, hz, hy⟩ := hy
      have := (List.mem_zipIdx hz).1
      cases hf : findPkAttr (removeIndex (cm.upper z.1)) pks with
      | none => simp [hf] at hy
      | some a => rw [hf] at hy; simp only [Option.map_some, Option.some.injEq] at hy; subst hy; dsimp only; omega
    cases hf : findPkAttr (removeIndex (cm.upper x.1)) pks with
    | none =>
      rw [hf] at ho
      simp only [RM.pure_ok] at ho
      obtain ⟨rfl, rfl⟩ := ho
      have e : found cm pks ((x :: xs).map (·.1)) n = found cm pks (xs.map (·.1)) (n + 1) := by
        simp [found, List.zipIdx_cons, hf]
      rw [e, List.filterMap_cons_none rfl, ih]
      apply List.map_congr_left
      intro y hy
      rw [step y hy]
      simp only [List.getElem?_cons_succ, dropS, Nat.add_comm 1]
    | some a =>
      rw [hf] at ho
      simp only [RM.bind_ok, RM.lift_ok_iff, RM.pure_ok, Res.index] at ho
      obtain ⟨w, t2, ⟨hw, rfl⟩, rfl, rfl⟩ := ho
      have hw' : wS[n]? = some w := by
        cases hk : wS[n]? with
        | none => simp [hk] at hw
        | some w' => rw [hk] at hw; rw [Res.ok.inj hw]
      have e : found cm pks ((x :: xs).map (·.1)) n = (a, n) :: found cm pks (xs.map (·.1)) (n + 1) := by
        simp [found, List.zipIdx_cons, hf]
      rw [e, List.map_cons]
      show _ :: (ys.filterMap id).map _ = _
      rw [ih]
      congr 1
      · simp [hw']
      · apply List.map_congr_left
        intro y hy
        rw [step y hy]
        simp only [List.getElem?_cons_succ, dropS, Nat.add_comm 1]

theorem encrypt_seen {cm : CaseMap} {env : Env F G1 G2 Gt} {gk : GlobalKey G1 G2} {pks : List (PublicKey G2 Gt)}
    {text : Str} {lang : PolicyLanguage} {m : Bytes} {t t' : Tape F G1 G2 Gt} {ct : Ciphertext G2 Gt} {p : Pol}
    (hp : parse text lang = .ok p.toValue) (h : encrypt cm env gk pks text lang m t = .ok (ct, t')) :
    ct.c0 = t.gt 0 + t.fr 0 • env.pair gk.g1 gk.g2 ∧
    ct.c.map (fun y => (y.c1, y.c2, y.c3)) = (found cm pks (p.leaves.map leafIdx) 0).map fun y =>
      (shareAt p (t.fr 0) (dropS 1 t.fr) y.2 • env.pair gk.g1 gk.g2 + t.fr (1 + draws p + draws p + y.2) • y.1.e,
        t.fr (1 + draws p + draws p + y.2) • gk.g2,
        t.fr (1 + draws p + draws p + y.2) • y.1.y + shareAt p 0 (dropS (1 + draws p) t.fr) y.2 • gk.g2) := by
  simp only [encrypt, RM.bind_ok, RM.genFr, RM.genGt, RM.lift_ok_iff, RM.pure_ok, hp, Res.ok.injEq,
    Prod.mk.injEq, RM.liftFr] at h
  obtain ⟨v, t0, ⟨rfl, rfl⟩, msp, t1, ⟨hm, rfl⟩, r0, t2, ⟨hr0, rfl⟩, s, t3, ⟨rfl, rfl⟩, sh, t4, hsh, shs, t5, ⟨hu, rfl⟩,
    wh, t6, hwh, whs, t7, ⟨hw, rfl⟩, msg, t8, ⟨rfl, rfl⟩, C, t9, hC, data, t10, hd, rfl, _⟩ := h
  rw [genSharesPolicy_eq] at hsh
  simp only [Res.ok.injEq, Prod.mk.injEq] at hsh
  obtain ⟨rfl, rfl⟩ := hsh
  rw [genSharesPolicy_eq] at hwh
  simp only [Res.ok.injEq, Prod.mk.injEq] at hwh
  obtain ⟨rfl, rfl⟩ := hwh
  simp only [Res.unwrapOption_some, Res.ok.injEq] at hu hw
  subst hu hw
  refine ⟨rfl, ?_⟩
  have hn : ∀ (σ : F) ω, (shares p σ ω).map (·.1) = p.leaves.map leafIdx := by
    intro σ ω
    rw [shares, List.map_fst_zip]
    simp [shareVals_length]
  rw [mapL_encShare _ _ _ _ _ _ _ _ _ _ hC, hn]
  simp only [shareAt, Nat.sub_zero, dropS_dropS]
  simp only [dropS]

theorem formal_move (cm : CaseMap) (env : Env F G1 G2 Gt) (gk : GlobalKey G1 G2) (tag : ℕ × ℕ) (a a' : F) (Y : Gt) :
    ∀ fk : List (PublicKey F ((ℕ × ℕ) × F)),
    (View.all ((fk.map (PublicKey.map (· • gk.g2) (fun e => secret tag a e • env.pair gk.g1 gk.g2))).map
      (PublicKey.seen (G1 := G1)))).one = [] ∧
    (View.all ((fk.map (PublicKey.map (· • gk.g2) (fun e => secret tag a e • env.pair gk.g1 gk.g2))).map
      (PublicKey.seen (G1 := G1)))).two = (View.all ((fk.map (PublicKey.map (· • gk.g2)
        (fun e => secret tag a' e • env.pair gk.g1 gk.g2))).map (PublicKey.seen (G1 := G1)))).two ∧
    Moves ((a' - a) • env.pair gk.g1 gk.g2) Y
      ((fk.flatMap fun pk => pk.attr.map fun b => if b.e.1 = tag then (1 : F) else 0).map fun x => (x, 0))
      (View.all ((fk.map (PublicKey.map (· • gk.g2) (fun e => secret tag a e • env.pair gk.g1 gk.g2))).map
        (PublicKey.seen (G1 := G1)))).tgt
      (View.all ((fk.map (PublicKey.map (· • gk.g2) (fun e => secret tag a' e • env.pair gk.g1 gk.g2))).map
        (PublicKey.seen (G1 := G1)))).tgt
  | [] => ⟨rfl, rfl, trivial⟩
  | pk :: fk => by
    obtain ⟨h1, h2, h3⟩ := formal_move cm env gk tag a a' Y fk
    refine ⟨?_, ?_, ?_⟩
    · simp only [List.map_cons, View.all, View.join, h1]; rfl
    · simp only [List.map_cons, View.all, View.join, h2]
      simp [PublicKey.seen, PublicKey.map]
    · simp only [List.flatMap_cons, List.map_append]
      refine Moves.append ?_ h3
      simp only [PublicKey.seen, PublicKey.map, List.map_map, Function.comp_def]
      refine Moves.map _ fun b _ => ?_
      simp only [secret]
      split <;> module

/-- The view of a ciphertext. -/
theorem ct_seen {cm : CaseMap} {env : Env F G1 G2 Gt} {gk : GlobalKey G1 G2} {fk : List (PublicKey F ((ℕ × ℕ) × F))}
    {tag : ℕ × ℕ} {a : F} {text : Str} {lang : PolicyLanguage} {m : Bytes} {t t' : Tape F G1 G2 Gt}
    {ct : Ciphertext G2 Gt} {p : Pol} (hp : parse text lang = .ok p.toValue)
    (h : encrypt cm env gk (fk.map (PublicKey.map (· • gk.g2) (fun e => secret tag a e • env.pair gk.g1 gk.g2)))
      text lang m t = .ok (ct, t')) :
    (ct.seen : View G1 G2 Gt) = ⟨[],
      (found cm fk (p.leaves.map leafIdx) 0).map (fun y => t.fr (1 + draws p + draws p + y.2) • gk.g2) ++
      (found cm fk (p.leaves.map leafIdx) 0).map (fun y => t.fr (1 + draws p + draws p + y.2) • y.1.y • gk.g2 +
        shareAt p 0 (dropS (1 + draws p) t.fr) y.2 • gk.g2),
      (t.gt 0 + t.fr 0 • env.pair gk.g1 gk.g2) :: (found cm fk (p.leaves.map leafIdx) 0).map (fun y =>
        shareAt p (t.fr 0) (dropS 1 t.fr) y.2 • env.pair gk.g1 gk.g2 +
          t.fr (1 + draws p + draws p + y.2) • secret tag a y.1.e • env.pair gk.g1 gk.g2)⟩ := by
  obtain ⟨h0, h⟩ := encrypt_seen hp h
  have e : found cm (fk.map (PublicKey.map (· • gk.g2) (fun e => secret tag a e • env.pair gk.g1 gk.g2)))
      (p.leaves.map leafIdx) 0 = (found cm fk (p.leaves.map leafIdx) 0).map fun y =>
        (⟨y.1.name, secret tag a y.1.e • env.pair gk.g1 gk.g2, y.1.y • gk.g2⟩, y.2) := by
    simp only [found, List.map_filterMap, findPkAttr_map, Option.map_map, Function.comp_def]
  rw [e, List.map_map] at h
  have g := fun {α : Type} (f : Gt × G2 × G2 → α) => congrArg (List.map f) h
  simp only [List.map_map, Function.comp_def] at g
  simp only [Ciphertext.seen, g fun x => x.1, g fun x => x.2.1, g fun x => x.2.2, h0]

/-- The other ciphertexts. -/
theorem cts_move (cm : CaseMap) (env : Env F G1 G2 Gt) (gk : GlobalKey G1 G2) (fk : List (PublicKey F ((ℕ × ℕ) × F)))
    (tag : ℕ × ℕ) (Y : Gt) : ∀ os : List (CpJob F G1 G2 Gt), ∃ post : List F, ∀ (a a' : F) (cs cs' : List (Ciphertext G2 Gt)),
      List.Forall₂ (fun o c => ∃ u, encrypt cm env gk (fk.map (PublicKey.map (· • gk.g2)
        (fun e => secret tag a e • env.pair gk.g1 gk.g2))) o.text o.lang o.plain o.tape = .ok (c, u)) os cs →
      List.Forall₂ (fun o c => ∃ u, encrypt cm env gk (fk.map (PublicKey.map (· • gk.g2)
        (fun e => secret tag a' e • env.pair gk.g1 gk.g2))) o.text o.lang o.plain o.tape = .ok (c, u)) os cs' →
      (View.all (cs.map (Ciphertext.seen (G1 := G1)))).one = (View.all (cs'.map (Ciphertext.seen (G1 := G1)))).one ∧
      (View.all (cs.map (Ciphertext.seen (G1 := G1)))).two = (View.all (cs'.map (Ciphertext.seen (G1 := G1)))).two ∧
      Moves ((a' - a) • env.pair gk.g1 gk.g2) Y (post.map fun x => (x, 0))
        (View.all (cs.map (Ciphertext.seen (G1 := G1)))).tgt (View.all (cs'.map (Ciphertext.seen (G1 := G1)))).tgt
  | [] => ⟨[], by rintro a a' _ _ ⟨⟩ ⟨⟩; exact ⟨rfl, rfl, trivial⟩⟩
  | o :: os => by
    obtain ⟨post, hpost⟩ := cts_move cm env gk fk tag Y os
    by_cases hv : ∃ p : Pol, parse o.text o.lang = .ok p.toValue
    · obtain ⟨p, hp⟩ := hv
      refine ⟨(0 :: (found cm fk (p.leaves.map leafIdx) 0).map fun y =>
        o.tape.fr (1 + draws p + draws p + y.2) * if y.1.e.1 = tag then 1 else 0) ++ post, ?_⟩
      rintro a a' _ _ (_ | ⟨⟨_, h⟩, l⟩) (_ | ⟨⟨_, h'⟩, l'⟩)
      obtain ⟨h1, h2, h3⟩ := hpost a a' _ _ l l'
      refine ⟨?_, ?_, ?_⟩
      · simp only [List.map_cons, View.all, View.join, h1]; rfl
      · simp only [List.map_cons, View.all, View.join, h2, ct_seen hp h, ct_seen hp h']
      · simp only [List.map_cons, View.all, View.join, ct_seen hp h, ct_seen hp h', List.map_append, List.map_map,
          Function.comp_def]
        refine Moves.append ⟨by simp, Moves.map _ fun y _ => ?_⟩ h3
        simp only [secret]
        split <;> module
    · refine ⟨[], ?_⟩
      rintro a a' _ _ (_ | ⟨⟨_, h⟩, l⟩)
      exfalso
      simp only [encrypt, RM.bind_ok, RM.lift_ok_iff] at h
      obtain ⟨v, _, ⟨hv', _⟩, _⟩ := h
      obtain ⟨p, rfl, _⟩ := parse_ok hv'
      exact hv ⟨p, hv'⟩

theorem nodup_found {A B : Type} (cm : CaseMap) (pks : List (PublicKey A B)) (l : List Str) (n : ℕ) :
    ((found cm pks l n).map (·.2)).Nodup := by
  refine List.Nodup.sublist (l₂ := (l.zipIdx n).map (·.2)) ?_ ?_
  · rw [found]
    induction l generalizing n with
    | nil => simp
    | cons x l ih =>
      simp only [List.zipIdx_cons, List.filterMap_cons, List.map_cons]
      cases findPkAttr (removeIndex (cm.upper x)) pks with
      | none => exact (ih (n + 1)).cons _
      | some a => exact (ih (n + 1)).cons₂ _
  · rw [List.zipIdx_map_snd]
    exact List.nodup_range' 

theorem keys_length {A B : Type} (fy : A → G2) (fe : B → Gt) : ∀ fk : List (PublicKey A B),
    (View.all ((fk.map (PublicKey.map fy fe)).map (PublicKey.seen (G1 := G1)))).tgt.length =
      (fk.flatMap fun pk => pk.attr.map fun b => b.e).length
  | [] => rfl
  | pk :: fk => by
    have := keys_length fy fe fk
    simp only [List.map_cons, View.all, View.join, List.length_append, this, List.flatMap_cons, PublicKey.seen, PublicKey.map,
      List.length_map]

theorem setup_eq {t t' : Tape F G1 G2 Gt} {gk : GlobalKey G1 G2} (h : setup t = .ok (gk, t')) : gk = ⟨t.g1 0, t.g2 0⟩ := by
  simp only [setup, RM.bind_ok, RM.genG1, RM.genG2, RM.pure_ok, Res.ok.injEq, Prod.mk.injEq] at h
  obtain ⟨_, _, ⟨rfl, rfl⟩, _, _, ⟨rfl, rfl⟩, rfl, _⟩ := h
  rfl

theorem shares_setFr (p : Pol) (t : Tape F G1 G2 Gt) (j : ℕ) (r σ : F) (τ : F) (hj : 1 + draws p + draws p ≤ j) (i : ℕ) :
    shareAt p τ (dropS 1 ((t.setFr j r).setFr 0 σ).fr) i = shareAt p τ (dropS 1 t.fr) i ∧
    shareAt p τ (dropS (1 + draws p) ((t.setFr j r).setFr 0 σ).fr) i = shareAt p τ (dropS (1 + draws p) t.fr) i := by
  simp only [shareAt, shares]
  constructor
  · rw [shareVals_congr p τ (ω' := dropS 1 t.fr)]
    intro l hl
    simp only [dropS, Tape.setFr]
    rw [if_neg (by omega), if_neg (by omega)]
  · rw [shareVals_congr p τ (ω' := dropS (1 + draws p) t.fr)]
    intro l hl
    simp only [dropS, Tape.setFr]
    rw [if_neg (by omega), if_neg (by omega)]

open Classical in
/-- **C77, AW11.** For every computation, every policy and plaintext, all authorities, all other ciphertexts and all
random numbers there are an attribute of an authority and a random number of the encryption such that the computation
opens the ciphertext for at most `2 · q² · |Gt|` of the `q³ · |Gt|` choices of the secret of this attribute, this number,
the encryption secret and the session element. -/
theorem C77_outsider [Fintype F] [Fintype Gt] (cm : CaseMap) (env : Env F G1 G2 Gt) (k : Formula F) (t : Tape F G1 G2 Gt)
    (hpair : env.pair (t.g1 0) (t.g2 0) ≠ 0) (auths : List (AuthJob F G1 G2 Gt)) (job : CpJob F G1 G2 Gt)
    (others : List (CpJob F G1 G2 Gt)) (extra : View G1 G2 Gt) :
    ∃ p i j, j ≠ 0 ∧ (Finset.univ.filter (Opened cm env k t auths job others extra p i j)).card ≤
      2 * Fintype.card F * Fintype.card F * Fintype.card Gt := by
  by_cases hv : ∃ p : Pol, parse job.text job.lang = .ok p.toValue
  swap
  · refine ⟨0, 0, 1, one_ne_zero, ?_⟩
    rw [Finset.filter_false_of_mem]
    · simp
    · rintro x - ⟨gk, t', pks, ct, u, cts, -, -, h, -⟩
      simp only [encrypt, RM.bind_ok, RM.lift_ok_iff] at h
      obtain ⟨v, _, ⟨hv', _⟩, _⟩ := h
      obtain ⟨p, rfl, _⟩ := parse_ok hv'
      exact hv ⟨p, hv'⟩
  obtain ⟨p, hp⟩ := hv
  set fk := formal cm auths with hfk
  set R := found cm fk (p.leaves.map leafIdx) 0 with hR
  set N := extra.tgt.length + (fk.flatMap fun pk => pk.attr.map fun b => b.e).length with hN
  by_cases hex : ∃ x < R.length, k.tgt (N + 1 + x) ≠ 0
  · obtain ⟨x, hx, hf⟩ := hex
    have hy : R[x]? = some R[x] := List.getElem?_eq_getElem hx
    set y := R[x] with hyd
    refine ⟨y.1.e.1.1, y.1.e.1.2, 1 + draws p + draws p + y.2, by omega, ?_⟩
    obtain ⟨post, hpost⟩ := cts_move cm env (⟨t.g1 0, t.g2 0⟩ : GlobalKey G1 G2) fk y.1.e.1 0 others
    set pre := extra.tgt.map (fun _ => (0 : F)) ++
      ((fk.flatMap fun pk => pk.attr.map fun b => if b.e.1 = y.1.e.1 then (1 : F) else 0) ++ [0]) with hpre
    have hBl : extra.tgt.length + (fk.flatMap fun pk => pk.attr.map fun b =>
        if b.e.1 = y.1.e.1 then (1 : F) else 0).length = N := by
      rw [hN]
      simp [List.length_flatMap]
    set g : PubAttr F ((ℕ × ℕ) × F) × ℕ → F := fun z =>
      if z.2 = y.2 then 0 else job.tape.fr (1 + draws p + draws p + z.2) * if z.1.e.1 = y.1.e.1 then 1 else 0 with hg
    have key := count_line (Finset.univ.filter (Opened cm env k t auths job others extra y.1.e.1.1 y.1.e.1.2
        (1 + draws p + draws p + y.2)))
      (slope k.tgt 0 pre + slope k.tgt (N + 1) (R.map g) + slope k.tgt (N + 1 + R.length) post) (k.tgt (N + 1 + x)) hf ?_
    · rw [Fintype.card_prod] at key
      calc _ ≤ _ := key
        _ = _ := by ring
    rintro r ⟨s, m⟩ a a' h h'
    simp only [Finset.mem_filter, Finset.mem_univ, true_and] at h h'
    obtain ⟨gk, t', pks, ct, u, cts, hs, ha, he, ho, hk⟩ := h
    obtain ⟨gk', t'', pks', ct', u', cts', hs', ha', he', ho', hk'⟩ := h'
    obtain rfl := setup_eq hs
    obtain rfl := setup_eq hs'
    obtain rfl := keys_eq ha
    obtain rfl := keys_eq ha'
    obtain ⟨o1, o2, o3⟩ := hpost a a' _ _ ho ho'
    obtain ⟨f1, f2, f3⟩ := formal_move (G1 := G1) cm env (⟨t.g1 0, t.g2 0⟩ : GlobalKey G1 G2) y.1.e.1 a a' 0 fk
    have f1' := (formal_move (G1 := G1) cm env (⟨t.g1 0, t.g2 0⟩ : GlobalKey G1 G2) y.1.e.1 a' a 0 fk).1
    have hc := ct_seen hp he
    have hc' := ct_seen hp he'
    have hT : ∀ z : PubAttr F ((ℕ × ℕ) × F) × ℕ,
        (((job.tape.setFr (1 + draws p + draws p + y.2) r).setFr 0 s).setGt m).fr (1 + draws p + draws p + z.2) =
        if z.2 = y.2 then r else job.tape.fr (1 + draws p + draws p + z.2) := by
      intro z
      simp only [Tape.setFr, Tape.setGt]
      rw [if_neg (by omega)]
      by_cases hz : z.2 = y.2
      · rw [if_pos (by omega), if_pos hz]
      · rw [if_neg (by omega), if_neg hz]
    have hc3 : Moves ((a' - a) • env.pair (t.g1 0) (t.g2 0)) 0
        (((0 : F), (0 : F)) :: R.map fun z => (g z + (if z.2 = y.2 then 1 else 0) * r, 0)) (ct.seen : View G1 G2 Gt).tgt
        (ct'.seen : View G1 G2 Gt).tgt := by
      rw [hc, hc']
      refine ⟨by simp, Moves.map _ fun z hz => ?_⟩
      simp only [hT, hg]
      by_cases hzy : z.2 = y.2
      · have : z = y := by
          have hn := nodup_found cm fk (p.leaves.map leafIdx) 0
          rw [← hR] at hn
          exact List.inj_on_of_nodup_map hn hz (List.getElem_mem hx) hzy
        simp only [this, if_true, secret]
        module
      · simp only [hzy, if_false, secret]
        split <;> module
    have hev := eval_sub env k (v := View.all (extra :: GlobalKey.seen ⟨t.g1 0, t.g2 0⟩ ::
        View.all ((fk.map (PublicKey.map (· • t.g2 0) (fun e => secret y.1.e.1 a' e • env.pair (t.g1 0) (t.g2 0)))).map
          PublicKey.seen) :: ct'.seen :: cts'.map Ciphertext.seen))
      (w := View.all (extra :: GlobalKey.seen ⟨t.g1 0, t.g2 0⟩ ::
        View.all ((fk.map (PublicKey.map (· • t.g2 0) (fun e => secret y.1.e.1 a e • env.pair (t.g1 0) (t.g2 0)))).map
          PublicKey.seen) :: ct.seen :: cts.map Ciphertext.seen))
      (by simp only [View.all, View.join, o1, f1, f1', hc, hc'])
      (by simp only [View.all, View.join, o2, f2, hc, hc'])
    have hk2 := hk'.trans hk.symm
    rw [← sub_eq_zero] at hk2
    have hk3 := hev.symm.trans hk2
    have hm := (Moves.refl (F := F) ((a' - a) • env.pair (t.g1 0) (t.g2 0)) 0 extra.tgt).append
      ((show Moves _ _ ([] : List (F × F)) [] [] from trivial).append (f3.append (hc3.append o3)))
    have hw := hm.weigh k.tgt 0
    have hw2 := hw.symm.trans hk3
    rw [slope_parts, slope_affine, hBl] at hw2
    have hn := nodup_found cm fk (p.leaves.map leafIdx) 0
    rw [← hR] at hn
    rw [slope_indicator k.tgt R (N + 1) x y hn hy, ← hpre] at hw2
    rw [smul_zero, add_zero, smul_smul, smul_eq_zero] at hw2
    rw [← hw2.resolve_right hpair]
    ring
  · push Not at hex
    refine ⟨0, 0, 1 + draws p + draws p, by omega, ?_⟩
    set S := Finset.univ.filter (Opened cm env k t auths job others extra 0 0 (1 + draws p + draws p)) with hS
    have main : ∀ r s m s' m' a, (r, (s, m), a) ∈ S → (r, (s', m'), a) ∈ S →
        k.tgt N • ((m' - m) + (s' - s) • env.pair (t.g1 0) (t.g2 0)) = m' - m := by
      intro r s m s' m' a h h'
      simp only [hS, Finset.mem_filter, Finset.mem_univ, true_and] at h h'
      obtain ⟨gk, t', pks, ct, u, cts, hs, ha, he, ho, hk⟩ := h
      obtain ⟨gk', t'', pks', ct', u', cts', hs', ha', he', ho', hk'⟩ := h'
      obtain rfl := setup_eq hs
      obtain rfl := setup_eq hs'
      obtain rfl := keys_eq ha
      obtain rfl := keys_eq ha'
      have hcts : cts' = cts := forall₂_det (by
        rintro o c c' ⟨_, h⟩ ⟨_, h'⟩
        have := h.symm.trans h'
        simp only [Res.ok.injEq, Prod.mk.injEq] at this
        exact this.1) ho' ho
      subst hcts
      have hc := ct_seen hp he
      have hc' := ct_seen hp he'
      have hT : ∀ (s : F) (m : Gt) (z : ℕ),
          (((job.tape.setFr (1 + draws p + draws p) r).setFr 0 s).setGt m).fr (1 + draws p + draws p + z) =
          (job.tape.setFr (1 + draws p + draws p) r).fr (1 + draws p + draws p + z) := by
        intro s m z
        simp only [Tape.setFr, Tape.setGt]
        rw [if_neg (by omega)]
      have hW : ∀ (s : F) (m : Gt) (z : ℕ), shareAt p 0 (dropS (1 + draws p)
          (((job.tape.setFr (1 + draws p + draws p) r).setFr 0 s).setGt m).fr) z =
          shareAt p 0 (dropS (1 + draws p) job.tape.fr) z := fun s m z =>
        (shares_setFr p job.tape _ r s 0 (le_refl _) z).2
      have two : (ct'.seen : View G1 G2 Gt).two = (ct.seen : View G1 G2 Gt).two := by
        rw [hc, hc']
        simp only [hT, hW]
      have hev := eval_sub env k (v := View.all (extra :: GlobalKey.seen ⟨t.g1 0, t.g2 0⟩ ::
          View.all ((fk.map (PublicKey.map (· • t.g2 0) (fun e => secret (0, 0) a e • env.pair (t.g1 0) (t.g2 0)))).map
            PublicKey.seen) :: ct'.seen :: cts'.map Ciphertext.seen))
        (w := View.all (extra :: GlobalKey.seen ⟨t.g1 0, t.g2 0⟩ ::
          View.all ((fk.map (PublicKey.map (· • t.g2 0) (fun e => secret (0, 0) a e • env.pair (t.g1 0) (t.g2 0)))).map
            PublicKey.seen) :: ct.seen :: cts'.map Ciphertext.seen))
        (by simp only [View.all, View.join, hc, hc']) (by simp only [View.all, View.join, two])
      have hk2 : _ - _ = m' - m := congrArg₂ (· - ·) hk' hk
      have hk3 := hev.symm.trans hk2
      have hlen := keys_length (G1 := G1) (G2 := G2) (· • t.g2 0) (fun e => secret (0, 0) a e • env.pair (t.g1 0) (t.g2 0)) fk
      have hl : (ct'.seen : View G1 G2 Gt).tgt.length = (ct.seen : View G1 G2 Gt).tgt.length := by
        rw [hc, hc']; simp
      simp only [View.all, View.join, weigh_append, hl, hlen, zero_add, GlobalKey.seen, weigh, List.length_nil, add_zero,
        ← hN] at hk3
      have hr : ∀ (l : List Gt) , l.length = R.length → weigh k.tgt (N + 1) l = 0 := by
        intro l hl
        exact weigh_zero k.tgt _ _ fun i hi => hex i (hl ▸ hi)
      rw [hc, hc'] at hk3
      simp only [weigh] at hk3
      rw [hr _ (List.length_map _), hr _ (List.length_map _)] at hk3
      simp only [Tape.setFr, Tape.setGt, if_true] at hk3
      refine Eq.trans ?_ hk3
      module
    have hq : Fintype.card F ≤ Fintype.card Gt :=
      Fintype.card_le_of_injective _ (smul_left_injective F hpair)
    have h1 : 1 ≤ Fintype.card F := Fintype.card_pos
    by_cases hN0 : k.tgt N = 0
    · have : S.card ≤ Fintype.card (F × F × F) := by
        refine Finset.card_le_card_of_injOn (t := Finset.univ) (fun x => (x.1, x.2.1.1, x.2.2)) (fun _ _ => Finset.mem_univ _) ?_
        rintro ⟨r, ⟨s, m⟩, a⟩ h ⟨r', ⟨s', m'⟩, a'⟩ h' e
        simp only [Prod.mk.injEq] at e
        obtain ⟨rfl, rfl, rfl⟩ := e
        have := main r s m s m' a h h'
        rw [hN0, zero_smul, eq_comm, sub_eq_zero] at this
        rw [this]
      refine this.trans ?_
      simp only [Fintype.card_prod]
      nlinarith [Nat.mul_le_mul_left (Fintype.card F * Fintype.card F) hq]
    · have : S.card ≤ Fintype.card (F × Gt × F) := by
        refine Finset.card_le_card_of_injOn (t := Finset.univ) (fun x => (x.1, x.2.1.2, x.2.2)) (fun _ _ => Finset.mem_univ _) ?_
        rintro ⟨r, ⟨s, m⟩, a⟩ h ⟨r', ⟨s', m'⟩, a'⟩ h' e
        simp only [Prod.mk.injEq] at e
        obtain ⟨rfl, rfl, rfl⟩ := e
        have := main r s m s' m a h h'
        simp only [sub_self, zero_add, smul_eq_zero, hN0, hpair, false_or, or_false, sub_eq_zero] at this
        rw [this]
      refine this.trans ?_
      simp only [Fintype.card_prod]
      nlinarith [Nat.zero_le (Fintype.card F * Fintype.card F * Fintype.card Gt)]

end Aw11
end Rabe
