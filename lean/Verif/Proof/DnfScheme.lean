import Verif.Model.Mke08
import Verif.Proof.Common
import Verif.Proof.KpCommon
import Verif.Proof.Dnf
import Verif.Props.Dnf

/-!
# BDABE and MKE08: common facts
-/

namespace Rabe

/-! ## Splitting at `::` -/

/-- `s` is `u`, two colons, `v`. -/
abbrev SplitsAs (s u v : Str) : Prop := s = u ++ ':' :: ':' :: v

theorem matchIndices_spec : ∀ (n : ℕ) (s : Str), s.length ≤ n → ∀ i,
    (matchIndices s i = [] ∧ ∀ u v, ¬ SplitsAs s u v) ∨
    ∃ u v, SplitsAs s u v ∧ (∀ u' v', SplitsAs s u' v' → u.length ≤ u'.length) ∧
      matchIndices s i = (i + u.length) :: matchIndices v (i + u.length + 2) := by
  intro n
  induction n with
  | zero =>
    intro s hs i
    obtain rfl := List.length_eq_zero_iff.1 (Nat.le_zero.1 hs)
    exact Or.inl ⟨rfl, fun u v h => by simp [SplitsAs] at h⟩
  | succ n ih =>
    intro s hs i
    match s, hs with
    | [], _ => exact Or.inl ⟨rfl, fun u v h => by simp [SplitsAs] at h⟩
    | [c], _ =>
      refine Or.inl ⟨rfl, fun u v h => ?_⟩
      have := congrArg List.length h
      simp at this
      omega
    | c :: d :: rest, hs =>
      by_cases hc : c = ':' ∧ d = ':'
      · obtain ⟨rfl, rfl⟩ := hc
        exact Or.inr ⟨[], rest, rfl, fun _ _ _ => Nat.zero_le _, by simp [matchIndices]⟩
      · have hm : matchIndices (c :: d :: rest) i = matchIndices (d :: rest) (i + 1) := by
          rw [matchIndices, if_neg hc]
        have hsplit : ∀ u v, SplitsAs (c :: d :: rest) u v → ∃ u', u = c :: u' ∧ SplitsAs (d :: rest) u' v := by
          intro u v h
          cases u with
          | nil =>
            simp only [SplitsAs, List.nil_append, List.cons.injEq] at h
            exact absurd ⟨h.1, h.2.1⟩ hc
          | cons e u =>
            simp only [SplitsAs, List.cons_append, List.cons.injEq] at h
            exact ⟨u, by rw [h.1], h.2⟩
        rcases ih (d :: rest) (by simp at hs ⊢; omega) (i + 1) with ⟨h1, h2⟩ | ⟨u, v, h1, h2, h3⟩
        · refine Or.inl ⟨by rw [hm, h1], fun u v h => ?_⟩
          obtain ⟨u', _, h'⟩ := hsplit u v h
          exact h2 u' v h'
        · refine Or.inr ⟨c :: u, v, by rw [SplitsAs, h1]; rfl, fun u' v' h => ?_, ?_⟩
          · obtain ⟨u'', rfl, h'⟩ := hsplit u' v' h
            have := h2 u'' v' h'
            simp; omega
          · rw [hm, h3, List.length_cons]
            congr 1 <;> [skip; congr 1] <;> omega

theorem matchIndices_nil {s : Str} {i : ℕ} : matchIndices s i = [] ↔ ∀ u v, ¬ SplitsAs s u v := by
  rcases matchIndices_spec s.length s le_rfl i with ⟨h1, h2⟩ | ⟨u, v, h1, _, h3⟩
  · exact ⟨fun _ => h2, fun _ => h1⟩
  · constructor
    · intro h
      rw [h] at h3
      simp at h3
    · intro h
      exact absurd h1 (h u v)

/-- A later occurrence lies in the rest after the first one. -/
theorem SplitsAs.rest {s u v x c : Str} (h : SplitsAs s u v) (hx : SplitsAs s x c) (hl : u.length + 2 ≤ x.length) :
    ∃ b, SplitsAs v b c ∧ x = u ++ ':' :: ':' :: b := by
  refine ⟨x.drop (u.length + 2), ?_, ?_⟩
  · have h1 : v = s.drop (u.length + 2) := by
      rw [h, ← List.drop_drop, List.drop_left]
      rfl
    rw [SplitsAs, h1, hx, List.drop_append_of_le_length hl]
  · have h2 : s.take (u.length + 2) = u ++ [':', ':'] := by
      rw [h, List.take_length_add_append]
      simp
    have h3 : x.take (u.length + 2) = u ++ [':', ':'] := by
      rw [← h2, hx, List.take_append_of_le_length hl]
    calc x = x.take (u.length + 2) ++ x.drop (u.length + 2) := (List.take_append_drop _ _).symm
      _ = _ := by rw [h3]; simp

theorem matchIndices_single {s : Str} {i : ℕ} : matchIndices s 0 = [i] ↔
    ∃ u v, SplitsAs s u v ∧ u.length = i ∧ (∀ u' v', SplitsAs s u' v' → u.length ≤ u'.length) ∧
      ∀ a b c, ¬ SplitsAs s (a ++ ':' :: ':' :: b) c := by
  rcases matchIndices_spec s.length s le_rfl 0 with ⟨h1, h2⟩ | ⟨u, v, h1, h2, h3⟩
  · constructor
    · intro h
      rw [h1] at h
      simp at h
    · rintro ⟨u, v, h, _⟩
      exact absurd h (h2 u v)
  · rw [h3, List.cons.injEq, matchIndices_nil]
    constructor
    · rintro ⟨rfl, h4⟩
      refine ⟨u, v, h1, by simp, h2, fun a b c hc => ?_⟩
      have ha : SplitsAs s a (b ++ ':' :: ':' :: c) := by rw [SplitsAs, hc]; simp
      have := h2 a _ ha
      obtain ⟨b', hb', _⟩ := h1.rest hc (by simp; omega)
      exact h4 b' c hb'
    · rintro ⟨u', v', h4, rfl, h5, h6⟩
      have : u.length = u'.length := Nat.le_antisymm (h2 u' v' h4) (h5 u v h1)
      refine ⟨by omega, fun a b hab => ?_⟩
      exact h6 u a b (by rw [SplitsAs, h1, hab]; simp)

/-- What `from_authority` checks, in both schemes. -/
theorem authority_iff (attr auth : Str) :
    (match matchIndices attr 0 with | [i] => attr.take i == auth | _ => false) = true ↔
      (∃ rest, SplitsAs attr auth rest) ∧ (∀ a b c, ¬ SplitsAs attr (a ++ ':' :: ':' :: b) c) ∧
      ∀ u v, SplitsAs attr u v → auth.length ≤ u.length := by
  constructor
  · intro h
    split at h
    · rename_i i hi
      obtain ⟨u, v, h1, rfl, h2, h3⟩ := matchIndices_single.1 hi
      have hu : attr.take u.length = u := by rw [h1, List.take_left]
      rw [hu, beq_iff_eq] at h
      subst h
      exact ⟨⟨v, h1⟩, h3, h2⟩
    · simp at h
  · rintro ⟨⟨rest, h1⟩, h2, h3⟩
    rw [matchIndices_single.2 ⟨auth, rest, h1, rfl, h3, h2⟩]
    simp only
    rw [h1, List.take_left, beq_self_eq_true]

theorem authority_unique {attr a b : Str}
    (ha : (match matchIndices attr 0 with | [i] => attr.take i == a | _ => false) = true)
    (hb : (match matchIndices attr 0 with | [i] => attr.take i == b | _ => false) = true) : a = b := by
  split at ha
  · rename_i i hi
    rw [hi] at hb
    rw [← beq_iff_eq.1 ha, ← beq_iff_eq.1 hb]
  · simp at ha

/-! ## Sums over a conjunction -/

/-- The loop of `calc_satisfiable`. -/
theorem conj_sum {M N : Type} [AddCommGroup M] [AddCommGroup N] (step : M × N → Str × ℕ → M × N)
    (m : Str → M) (n : Str → N) (conj : List Str) (hne : conj ≠ [])
    (h : ∀ a ∈ conj, ∀ ret i, step ret (a, i) = if i = 0 then (m a, n a) else (ret.1 + m a, ret.2 + n a))
    (one : M × N) : conj.zipIdx.foldl step one = ((conj.map m).sum, (conj.map n).sum) := by
  have key : ∀ (cs : List Str), (∀ a ∈ cs, ∀ ret i, step ret (a, i) =
      if i = 0 then (m a, n a) else (ret.1 + m a, ret.2 + n a)) → ∀ (k : ℕ) (acc : M × N),
      (cs.zipIdx (k + 1)).foldl step acc = (acc.1 + (cs.map m).sum, acc.2 + (cs.map n).sum) := by
    intro cs
    induction cs with
    | nil => intro _ k acc; simp
    | cons c cs ih =>
      intro hc k acc
      rw [List.zipIdx_cons, List.foldl_cons, ih fun a ha => hc a (by simp [ha])]
      simp [hc c (by simp), add_assoc]
  cases conj with
  | nil => exact absurd rfl hne
  | cons c cs =>
    rw [List.zipIdx_cons, List.foldl_cons, key cs fun a ha => h a (by simp [ha])]
    simp [h c (by simp)]

theorem map_smul_sum {F M : Type} [Field F] [AddCommGroup M] [Module F M] {α : Type} (L : List α) (f : α → F) (m : M) :
    (L.map fun x => f x • m).sum = (L.map f).sum • m := by
  induction L with
  | nil => simp
  | cons x xs ih => simp [ih, add_smul]

/-! ## The exponent of an attribute -/

/-- The secret exponent of an attribute, given the (name, secret) pairs of the authorities. -/
def expOf {F : Type} [Field F] (hash : Str → F) (auths : List (Str × F)) (attr : Str) : F :=
  match auths.find? fun a => match matchIndices attr 0 with | [i] => attr.take i == a.1 | _ => false with
  | some a => hash attr * hash a.1 * a.2
  | none => 0

theorem expOf_eq {F : Type} [Field F] {hash : Str → F} {auths : List (Str × F)}
    (hinj : ∀ a ∈ auths, ∀ b ∈ auths, a.1 = b.1 → a.2 = b.2) {attr : Str} {a : Str × F} (ha : a ∈ auths)
    (h : (match matchIndices attr 0 with | [i] => attr.take i == a.1 | _ => false) = true) :
    expOf hash auths attr = hash attr * hash a.1 * a.2 := by
  unfold expOf
  cases hf : auths.find? fun a => match matchIndices attr 0 with | [i] => attr.take i == a.1 | _ => false with
  | none =>
    rw [List.find?_eq_none] at hf
    exact absurd h (hf a ha)
  | some b =>
    have hb := List.find?_some hf
    have hn := authority_unique hb h
    simp only
    rw [hn, hinj b (List.mem_of_find?_eq_some hf) a ha hn]

/-- The products of the terms in terms of the exponents. -/
theorem term_exponents {F G1 G2 Gt : Type} [Field F] [AddCommGroup G1] [Module F G1]
    [AddCommGroup G2] [Module F G2] [AddCommGroup Gt] [Module F Gt] {pks : List (PubAttr G1 G2 Gt)} (e : Str → F)
    (g1 : G1) (g2 : G2) (x1 x2 : Gt)
    (hpk : ∀ k ∈ pks, k.g1 = e k.attr • g1 ∧ k.g2 = e k.attr • g2 ∧ k.gt1 = e k.attr • x1 ∧ k.gt2 = e k.attr • x2)
    {p : Pol} {terms : List (DnfTerm G1 G2 Gt)} (h : jsonToDnf p.toValue pks = .ok terms) {text : Str}
    {lang : PolicyLanguage} (hp : Denotes text lang p) : ∀ t ∈ terms,
    t.attrs ≠ [] ∧ t.g1 = (t.attrs.map e).sum • g1 ∧ t.g2 = (t.attrs.map e).sum • g2 ∧
      t.gt1 = (t.attrs.map e).sum • x1 ∧ t.gt2 = (t.attrs.map e).sum • x2 := by
  intro t ht
  obtain ⟨ks, hne, hks, h1, h2, h3, h4, h5⟩ := C22_dnf_term_products text lang p hp pks terms h t ht
  have key : ∀ {M : Type} [AddCommGroup M] [Module F M] (f : PubAttr G1 G2 Gt → M) (m : M),
      (∀ k ∈ pks, f k = e k.attr • m) → (ks.map f).sum = (t.attrs.map e).sum • m := by
    intro M _ _ f m hf
    rw [h1, List.map_map, ← map_smul_sum]
    congr 1
    exact List.map_congr_left fun x hx => hf x (hks x hx).1
  refine ⟨by rw [h1]; simpa using hne, ?_, ?_, ?_, ?_⟩
  · rw [h4]; exact key _ _ fun k hk => (hpk k hk).1
  · rw [h5]; exact key _ _ fun k hk => (hpk k hk).2.1
  · rw [h2]; exact key _ _ fun k hk => (hpk k hk).2.2.1
  · rw [h3]; exact key _ _ fun k hk => (hpk k hk).2.2.2

end Rabe
