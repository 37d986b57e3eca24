import Verif.Model.TestsAw11
import Verif.Props.Tests

/-!
# Property C106: the unit tests of the module `aw11`

For every plaintext that the symmetric encryption accepts, every environment and all random numbers.
-/

namespace Rabe.Aw11

set_option linter.unusedSectionVars false

variable {F G1 G2 Gt : Type} [Field F] [DecidableEq F] [AddCommGroup G1] [Module F G1]
  [AddCommGroup G2] [Module F G2] [AddCommGroup Gt] [Module F Gt]

/-- Conversion to upper case leaves the letters used in the tests as they are. -/
def Upper (cm : CaseMap) : Prop := ∀ c ∈ ['A', 'B', 'C', 'D', 'E', 'F', 'G', 'H', 'I'], cm.upper [c] = [c]

section
variable {cm : CaseMap} {env : Env F G1 G2 Gt} {gk : GlobalKey G1 G2} {auths : List (Authority F G2 Gt)}

theorem add_named (hG : ∀ a ∈ auths, a.Genuine cm env gk) (hu : ∀ a ∈ auths, ∀ n ∈ a.names, cm.upper n = n) {a} (ha : a ∈ auths)
    {attr : Str} (hm : attr ∈ a.names) (hne : attr ≠ []) {sk : SecretKey G1} (hg : sk.gid ≠ []) :
    ∃ sk', addToAttribute cm env gk a.msk attr sk = .ok sk' ∧ sk'.gid = sk.gid ∧
      sk'.attr.map (·.1) = sk.attr.map (·.1) ++ [attr] := by
  obtain ⟨sk', h⟩ := (C38_aw11_defined_add cm env gk a (hG a ha) attr sk).2
    ⟨hne, hg, List.mem_map.2 ⟨attr, hm, hu a ha _ hm⟩⟩
  obtain ⟨L, hL, hLn, hA⟩ := authorities_ok hG
  obtain ⟨-, -, x, -, hx, -, rfl⟩ := addToAttribute_ok hL (by
    intro x hx
    have : x.1.name ∈ L.map (·.1.name) := List.mem_map.2 ⟨x, hx, rfl⟩
    rw [hLn] at this
    obtain ⟨b, hb, hn⟩ := List.mem_flatMap.1 this
    obtain ⟨n, hn, e⟩ := List.mem_map.1 hn
    rw [← e, hu b hb n hn, hu b hb n hn]) (hA a ha).2.1 h
  exact ⟨_, h, rfl, by simp⟩

theorem adds_named (hG : ∀ a ∈ auths, a.Genuine cm env gk) (hu : ∀ a ∈ auths, ∀ n ∈ a.names, cm.upper n = n) {a} (ha : a ∈ auths) :
    ∀ (l : List Str), (∀ x ∈ l, x ∈ a.names ∧ x ≠ []) → ∀ (sk : SecretKey G1), sk.gid ≠ [] →
    ∃ sk', Res.foldR (fun sk x => addToAttribute cm env gk a.msk x sk) sk l = .ok sk' ∧
      Res.foldR (fun sk x => Res.unwrap (addToAttribute cm env gk a.msk x sk)) sk l = .ok sk' ∧ sk'.gid = sk.gid ∧
      sk'.attr.map (·.1) = sk.attr.map (·.1) ++ l ∧ (Issued cm env gk auths sk → Issued cm env gk auths sk') := by
  intro l
  induction l with
  | nil => exact fun _ sk _ => ⟨sk, rfl, rfl, rfl, by simp, id⟩
  | cons x l ih =>
    intro hl sk hg
    obtain ⟨sk₁, h1, g1, n1⟩ := add_named hG hu ha (hl x (by simp)).1 (hl x (by simp)).2 hg
    obtain ⟨sk₂, h2, h2', g2, n2, i2⟩ := ih (fun y hy => hl y (by simp [hy])) sk₁ (by rw [g1]; exact hg)
    refine ⟨sk₂, ?_, ?_, by rw [g2, g1], by rw [n2, n1]; simp, fun hi => i2 (.add hi ha h1)⟩
    · simp only [Res.foldR, h1]
      exact h2
    · simp only [Res.foldR, h1, Res.unwrap]
      exact h2'

theorem keygen_named (hG : ∀ a ∈ auths, a.Genuine cm env gk) (hu : ∀ a ∈ auths, ∀ n ∈ a.names, cm.upper n = n) {a} (ha : a ∈ auths)
    {gid : Str} (hgid : gid ≠ []) {l : List Str} (hne : l ≠ []) (hl : ∀ x ∈ l, x ∈ a.names ∧ x ≠ []) :
    ∃ sk, keygen cm env gk a.msk gid l = .ok sk ∧ sk.gid = gid ∧ sk.attr.map (·.1) = l ∧ Issued cm env gk auths sk := by
  obtain ⟨sk, h, -, g, n, -⟩ := adds_named hG hu ha l hl ⟨gid, []⟩ hgid
  have h' : keygen cm env gk a.msk gid l = .ok sk := by
    have e1 : l.isEmpty = false := by cases l <;> simp_all
    have e2 : gid.isEmpty = false := by cases gid <;> simp_all
    simp only [keygen, e1, e2, Bool.false_eq_true, if_false]
    exact h
  exact ⟨sk, h', g, by simpa using n, .keygen ha h'⟩

/-- Decryption with a key whose attributes satisfy the policy, the names being the same in upper case. -/
theorem decrypts [BigChar F] (hG : ∀ a ∈ auths, a.Genuine cm env gk) (hu : ∀ a ∈ auths, ∀ n ∈ a.names, cm.upper n = n)
    (hd : (auths.flatMap (·.names)).Nodup) {sk : SecretKey G1} (hi : Issued cm env gk auths sk) {N : List Str}
    (hN : sk.attr.map (·.1) = N) {text lang} {p : Pol} (hr : Regular text lang p) (hp : ∀ n ∈ p.names, '_' ∉ n)
    (hpu : ∀ n ∈ p.names, cm.upper n = n) {bs : List (Authority F G2 Gt)} (hbs : ∀ b ∈ bs, b ∈ auths)
    (hc : ∀ n ∈ p.names, n ∈ N → ∃ b ∈ bs, n ∈ b.names) {pt : Bytes} {t t' : Tape F G1 G2 Gt} {ct}
    (h : encrypt cm env gk (bs.map (·.pk)) text lang pt t = .ok (ct, t')) (hs : p.sat N = true) :
    decrypt env gk sk ct = .ok pt := by
  subst hN
  obtain ⟨L, _, _, hL⟩ := authorities_ok hG
  have he : ∀ a ∈ auths, a.names.map cm.upper = a.names := fun a ha => by
    conv_rhs => rw [← List.map_id a.names]
    exact List.map_congr_left fun n hn => hu a ha n hn
  refine C38_aw11_correct_partial cm env gk auths hG ?_ sk hi _ _ _ hr (fun n hn _ => hp n hn) hpu _ ?_ ?_ pt _ _ ct h hs
  · have : (auths.flatMap fun a => a.names.map cm.upper) = auths.flatMap (·.names) := by
      rw [List.flatMap_def, List.flatMap_def]
      congr 1
      exact List.map_congr_left he
    rw [this]
    exact hd
  · intro pk hpk
    obtain ⟨b, hb, rfl⟩ := List.mem_map.1 hpk
    exact ⟨b, hbs b hb, rfl⟩
  · intro n hn hn'
    obtain ⟨b, hb, hm⟩ := hc n hn hn'
    refine ⟨b.pk, List.mem_map.2 ⟨b, hb, rfl⟩, ?_⟩
    rw [(hL b (hbs b hb)).2.2.1, he b (hbs b hb)]
    exact hm

end

theorem encrypt_policy {cm : CaseMap} {env : Env F G1 G2 Gt} {gk : GlobalKey G1 G2} {pks policy lang pt}
    {t t' : Tape F G1 G2 Gt} {ct} (h : encrypt cm env gk pks policy lang pt t = .ok (ct, t')) : ct.policy = (policy, lang) := by
  simp only [encrypt, RM.bind_ok, RM.pure_ok] at h
  obtain ⟨_, _, -, _, _, -, _, _, -, _, _, -, _, _, -, _, _, -, _, _, -, _, _, -, _, _, -, _, _, -, _, _, -, rfl, -⟩ := h
  rfl

/-- **C106, the test `and`.** It ends normally, whatever the random numbers. -/
theorem C106_and [BigChar F] (cm : CaseMap) (hup : Upper cm) (env : Env F G1 G2 Gt) (pt : Bytes) (ha : Accepts env pt)
    (s : Tape F G1 G2 Gt) : ∃ s', testAnd cm env pt s = .ok ((), s') := by
  have hr : Regular (chars% "{\"name\": \"and\", \"children\": [{\"name\": \"H\"}, {\"name\": \"B\"}]}") .json
      (.gate .and [.leaf ['H'] 40, .leaf ['B'] 55]) :=
    ⟨denotes_of_same (by decide +kernel), by decide +kernel, by simp [Pol.Wide], by simp⟩
  obtain ⟨d1, d2, d3⟩ := C38_aw11_defined cm env
  obtain ⟨gk, t₁, h1⟩ := d1 s
  obtain ⟨pk1, msk1, t₂, h2⟩ := d2 gk [['A'], ['B'], ['C']] (by simp) t₁
  obtain ⟨pk2, msk2, t₃, h3⟩ := d2 gk [['D'], ['E'], ['F']] (by simp) t₂
  obtain ⟨pk3, msk3, t₄, h4⟩ := d2 gk [['G'], ['H'], ['I']] (by simp) t₃
  let a1 : Authority F G2 Gt := ⟨[['A'], ['B'], ['C']], pk1, msk1⟩
  let a3 : Authority F G2 Gt := ⟨[['G'], ['H'], ['I']], pk3, msk3⟩
  have hG : ∀ a ∈ [a1, a3], a.Genuine cm env gk := by
    intro a h
    rcases List.mem_pair.1 h with rfl | rfl
    · exact ⟨_, _, h2⟩
    · exact ⟨_, _, h4⟩
  have hu : ∀ a ∈ [a1, a3], ∀ n ∈ a.names, cm.upper n = n := by
    have := hup
    simp only [Upper, List.forall_mem_cons] at this
    simp [a1, a3, this]
  obtain ⟨bob, k1, g1, n1, i1⟩ := keygen_named (gid := chars% "bob") hG hu (a := a3) (by simp) (by simp) (l := [['H'], ['I']])
    (by simp) (by simp [a3])
  obtain ⟨bob', k2, g2, n2⟩ := add_named hG hu (a := a1) (by simp) (attr := ['B']) (by simp [a1]) (by simp) (sk := bob)
    (by rw [g1]; simp)
  obtain ⟨ct, t₅, h5⟩ := d3 gk [pk3, pk1] _ _ _ hr.denotes (by simp [Pol.Binary]) pt ha t₄
  have hd := decrypts hG hu (by simp [a1, a3]) (.add i1 (a := a1) (by simp) k2) (by rw [n2, n1]) hr (by simp [Pol.names])
    (by have := hup; simp only [Upper, List.forall_mem_cons] at this; simp [Pol.names, this]) (bs := [a3, a1]) (by simp)
    (by simp [Pol.names, a1, a3]) h5 (by simp)
  exact ⟨t₅, by simp [testAnd, RM.bind_apply, h1, h2, h3, h4, show keygen cm env gk msk3 _ _ = _ from k1,
    show addToAttribute cm env gk msk1 _ _ = _ from k2, orPanic_ok h5, hd, assertPlain_ok, RM.lift, Res.unwrap]⟩

/-- **C106, the common form.** With any policy on one line with two operands at every `and`, and any attributes of the second
authority: decryption returns the plaintext if the attributes satisfy the policy, and an error if not. -/
theorem C106_two [BigChar F] (cm : CaseMap) (hup : Upper cm) (env : Env F G1 G2 Gt) (adds : List Str)
    (hadds : ∀ x ∈ adds, x = ['C'] ∨ x = ['D']) (text : Str) (p : Pol) (hr : Regular text .json p) (hb : p.Binary)
    (hp : ∀ n ∈ p.names, n = ['A'] ∨ n = ['B'] ∨ n = ['C'] ∨ n = ['D']) (pt : Bytes) (ha : Accepts env pt)
    (s : Tape F G1 G2 Gt) :
    ∃ s', testTwo cm env adds text pt s = .ok (if p.sat (['A'] :: adds) then .ok pt else .err, s') := by
  have hup' := hup
  simp only [Upper, List.forall_mem_cons] at hup'
  obtain ⟨d1, d2, d3⟩ := C38_aw11_defined cm env
  obtain ⟨gk, t₁, h1⟩ := d1 s
  obtain ⟨pk1, msk1, t₂, h2⟩ := d2 gk [['A'], ['B']] (by simp) t₁
  obtain ⟨pk2, msk2, t₃, h3⟩ := d2 gk [['C'], ['D']] (by simp) t₂
  let a1 : Authority F G2 Gt := ⟨[['A'], ['B']], pk1, msk1⟩
  let a2 : Authority F G2 Gt := ⟨[['C'], ['D']], pk2, msk2⟩
  have hG : ∀ a ∈ [a1, a2], a.Genuine cm env gk := by
    intro a h
    rcases List.mem_pair.1 h with rfl | rfl
    · exact ⟨_, _, h2⟩
    · exact ⟨_, _, h3⟩
  have hu : ∀ a ∈ [a1, a2], ∀ n ∈ a.names, cm.upper n = n := by simp [a1, a2, hup']
  obtain ⟨bob, k1, g1, n1, i1⟩ := keygen_named (gid := chars% "bob") hG hu (a := a1) (by simp) (by simp) (l := [['A']])
    (by simp) (by simp [a1])
  obtain ⟨bob', -, k2, g2, n2, i2⟩ := adds_named hG hu (a := a2) (by simp) adds
    (fun x hx => by rcases hadds x hx with rfl | rfl <;> simp [a2]) bob (by rw [g1]; simp)
  rw [n1, List.singleton_append] at n2
  obtain ⟨ct, t₄, h4⟩ := d3 gk [pk2, pk1] _ _ _ hr.denotes hb pt ha t₃
  have hd : decrypt env gk bob' ct = if p.sat (['A'] :: adds) then .ok pt else .err := by
    split
    · rename_i hs
      refine decrypts hG hu (by simp [a1, a2]) (i2 i1) n2 hr ?_ ?_ (bs := [a2, a1]) (by simp) ?_ h4 hs
      · intro n hn
        rcases hp n hn with rfl | rfl | rfl | rfl <;> simp
      · intro n hn
        rcases hp n hn with rfl | rfl | rfl | rfl <;> simp [hup']
      · intro n hn _
        rcases hp n hn with rfl | rfl | rfl | rfl <;> simp [a1, a2]
    · rename_i hs
      refine C39_aw11_refuses env gk bob' ct p (by rw [encrypt_policy h4]; exact hr.denotes) (.inl ?_)
      rw [n2]
      simpa using hs
  refine ⟨t₄, ?_⟩
  have k1' : (keygen cm env gk msk1 (chars% "bob") [['A']]).unwrap = .ok bob := by
    rw [show keygen cm env gk msk1 (chars% "bob") [['A']] = _ from k1]
    rfl
  have k2' : Res.foldR (fun sk a => Res.unwrap (addToAttribute cm env gk msk2 a sk)) bob adds = .ok bob' := k2
  simp [testTwo, RM.bind_apply, h1, h2, h3, RM.lift, k1', k2', orPanic_ok h4, ← hd]

/-- **C106, all tests.** `and`, `or`, `or_and` and `not` end normally, whatever the random numbers. -/
theorem C106_all [BigChar F] (cm : CaseMap) (hup : Upper cm) (env : Env F G1 G2 Gt) (pt : Bytes) (ha : Accepts env pt)
    (s : Tape F G1 G2 Gt) :
    (∃ s', testAnd cm env pt s = .ok ((), s')) ∧ (∃ s', testOr cm env pt s = .ok ((), s')) ∧
      (∃ s', testOrAnd cm env pt s = .ok ((), s')) ∧ ∃ s', testNot cm env pt s = .ok ((), s') := by
  refine ⟨C106_and cm hup env pt ha s, ?_, ?_, ?_⟩
  · obtain ⟨s', h⟩ := C106_two cm hup env [['C']] (by simp) _ (.gate .or [.leaf ['B'] 39, .leaf ['C'] 54])
      ⟨denotes_of_same (text := chars% "{\"name\": \"or\", \"children\": [{\"name\": \"B\"}, {\"name\": \"C\"}]}")
        (by decide +kernel), by decide +kernel, by simp [Pol.Wide], by simp⟩ (by simp [Pol.Binary]) (by simp [Pol.names]) pt ha s
    rw [if_pos (by simp)] at h
    exact ⟨s', by simp [testOr, RM.bind_apply, h, assertPlain_ok]⟩
  · obtain ⟨s', h⟩ := C106_two cm hup env [['C'], ['D']] (by simp) _
      (.gate .or [.leaf ['B'] 39, .gate .and [.leaf ['C'] 83, .leaf ['D'] 98]])
      ⟨denotes_of_same (text := chars%
        "{\"name\": \"or\", \"children\": [{\"name\": \"B\"}, {\"name\": \"and\", \"children\": [{\"name\": \"C\"}, {\"name\": \"D\"}]}]}")
        (by decide +kernel), by decide +kernel, by simp [Pol.Wide], by simp⟩ (by simp [Pol.Binary]) (by simp [Pol.names]) pt ha s
    rw [if_pos (by simp)] at h
    exact ⟨s', by simp [testOrAnd, RM.bind_apply, h, assertPlain_ok]⟩
  · obtain ⟨s', h⟩ := C106_two cm hup env [['D']] (by simp) _
      (.gate .or [.leaf ['B'] 39, .gate .and [.leaf ['C'] 83, .leaf ['A'] 98]])
      ⟨denotes_of_same (text := chars%
        "{\"name\": \"or\", \"children\": [{\"name\": \"B\"}, {\"name\": \"and\", \"children\": [{\"name\": \"C\"}, {\"name\": \"A\"}]}]}")
        (by decide +kernel), by decide +kernel, by simp [Pol.Wide], by simp⟩ (by simp [Pol.Binary]) (by simp [Pol.names]) pt ha s
    rw [if_neg (by simp)] at h
    exact ⟨s', by simp [testNot, RM.bind_apply, h, assertErr_err]⟩

/-- The hypotheses hold, also if all random numbers are zero. -/
example : ∃ s', testNot asciiCase toyEnv [7, 8] zeroTape = .ok ((), s') :=
  (C106_all asciiCase (by unfold Upper; decide) toyEnv [7, 8] (toy_accepts _) zeroTape).2.2.2

end Rabe.Aw11
