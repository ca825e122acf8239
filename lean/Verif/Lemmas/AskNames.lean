import Verif.Lemmas.Ask
/-!
# Lemmas on the names operations are looked for under
-/
namespace Verif.Ask
open Spec
open Expr (K1)
open scoped Classical

variable {S S' : St} {fmt : ℝ → List Char} {env : Expr.Env}

/-- The pieces of the name of an own operation. -/
inductive Named (fmt : ℝ → List Char) : Op → List (List Char) → Prop where
  | elem (k : K1) (h : NotCond1 k) : Named fmt (.elem k) (k.parts fmt)
  | arith (o : Arith) : Named fmt (.arith o) [o.word]
  | axialA (o : Arith) (k : Nat) : Named fmt (.axial o true k) [o.word, "axis".toList, "a".toList, dec k]
  | axialB (o : Arith) (k : Nat) : Named fmt (.axial o false k) [o.word, "axis".toList, "b".toList, dec k]
  | eq : Named fmt (.cond "eq".toList fun x y => decide (x = y)) ["conditional".toList, "eq".toList]
  | neq : Named fmt (.cond "neq".toList fun x y => decide (x ≠ y)) ["conditional".toList, "neq".toList]
  | transpose (i j : Nat) : Named fmt (.transpose i j) ["transpose".toList, dec i, dec j]
  | fit : Named fmt .fit ["fit".toList]
  | extend (i m : Nat) : Named fmt (.extend i m) ["extend".toList, dec i, dec m]
  | sum : Named fmt (.compress "reduce_sum".toList (fun x y => x + y) none) ["reduce".toList, "sum".toList]
  | sumAt (k : Nat) : Named fmt (.compress "reduce_sum".toList (fun x y => x + y) (some k)) ["reduce".toList, "sum".toList, dec k]
  | max : Named fmt (.compress "reduce_max".toList (fun x y => max x y) none) ["reduce".toList, "max".toList]
  | maxAt (k : Nat) : Named fmt (.compress "reduce_max".toList (fun x y => max x y) (some k)) ["reduce".toList, "max".toList, dec k]
  | argMax : Named fmt (.argCompress "arg_max".toList firstMax none) ["arg".toList, "max".toList]
  | argMaxAt (k : Nat) : Named fmt (.argCompress "arg_max".toList firstMax (some k)) ["arg".toList, "max".toList, dec k]
  | flip (ds : List Nat) : Named fmt (.flip ds) ("flip".toList :: ds.map dec)
  | cross (i j : Nat) : Named fmt (.cross i j) ["cross".toList, "conv".toList, dec i, dec j]
  | matmul : Named fmt .matmul ["matmul".toList]
  | l2norm : Named fmt .l2norm ["l2norm".toList]
  | clipNorm (c : ℝ) : Named fmt (.clipNorm c) ["clip".toList, "l2norm".toList, fmt c]
  | sample (n : ℝ) : Named fmt (.sample n) ["binomial".toList, "sample".toList, 'n' :: fmt n]
  | asConst : Named fmt .asConst ["const".toList, "immutable".toList]
  | size (k : Nat) : Named fmt (.extract ("axis_".toList ++ dec k ++ "_size".toList) (sizeAt k)) ["axis".toList, dec k, "size".toList]
  | nelems : Named fmt (.extract "shape_nelems".toList sizeAll) ["shape".toList, "nelems".toList]

theorem named_of_own {o : Op} (h : Own o) : ∃ p, Named fmt o p := by
  cases o with
  | elem k => exact ⟨_, .elem k h⟩
  | arith o => exact ⟨_, .arith o⟩
  | axial o l k =>
    cases l with
    | true => exact ⟨_, .axialA o k⟩
    | false => exact ⟨_, .axialB o k⟩
  | cond name cmp =>
    rcases h with ⟨rfl, rfl⟩ | ⟨rfl, rfl⟩
    · exact ⟨_, .eq⟩
    · exact ⟨_, .neq⟩
  | transpose i j => exact ⟨_, .transpose i j⟩
  | fit => exact ⟨_, .fit⟩
  | extend i m => exact ⟨_, .extend i m⟩
  | compress name f k =>
    cases k with
    | none =>
      rcases h with ⟨rfl, rfl⟩ | ⟨rfl, rfl⟩
      · exact ⟨_, .sum⟩
      · exact ⟨_, .max⟩
    | some k =>
      rcases h with ⟨rfl, rfl⟩ | ⟨rfl, rfl⟩
      · exact ⟨_, .sumAt k⟩
      · exact ⟨_, .maxAt k⟩
  | argCompress name f k =>
    obtain ⟨rfl, rfl⟩ := h
    cases k with
    | none => exact ⟨_, .argMax⟩
    | some k => exact ⟨_, .argMaxAt k⟩
  | flip ds => exact ⟨_, .flip ds⟩
  | cross i j => exact ⟨_, .cross i j⟩
  | matmul => exact ⟨_, .matmul⟩
  | l2norm => exact ⟨_, .l2norm⟩
  | clipNorm c => exact ⟨_, .clipNorm c⟩
  | sample n => exact ⟨_, .sample n⟩
  | asConst => exact ⟨_, .asConst⟩
  | extract name f =>
    rcases h with ⟨k, rfl, rfl⟩ | ⟨rfl, rfl⟩
    · exact ⟨_, .size k⟩
    · exact ⟨_, .nelems⟩

theorem intercalate_cons2 (a b : List Char) (l : List (List Char)) : List.intercalate ['_'] (a :: b :: l) = a ++ '_' :: List.intercalate ['_'] (b :: l) := by
  simp [List.intercalate]

theorem intercalate_one (a : List Char) : List.intercalate ['_'] [a] = a := by simp [List.intercalate]

theorem intercalate_flip (a : List Char) (ds : List Nat) : List.intercalate ['_'] (a :: ds.map dec) = a ++ ds.flatMap fun d => '_' :: dec d := by
  induction ds generalizing a with
  | nil => simp [List.intercalate]
  | cons d ds ih => rw [List.map_cons, intercalate_cons2, ih, List.flatMap_cons, List.cons_append]

theorem named_label {o : Op} {p : List (List Char)} (h : Named fmt o p) : o.label fmt = List.intercalate ['_'] p := by
  cases h
  case elem => unfold Op.label; exact rfl
  all_goals unfold Op.label
  all_goals simp only [intercalate_cons2, intercalate_one]
  case sumAt => unfold withAxis; simp
  case maxAt => unfold withAxis; simp
  case argMaxAt => unfold withAxis; simp
  case sum => unfold withAxis; simp
  case max => unfold withAxis; simp
  case argMax => unfold withAxis; simp
  case flip ds => rw [intercalate_flip]
  all_goals simp

theorem dec_clean (n : Nat) : '_' ∉ dec n := by
  intro h
  have := Nat.isDigit_of_mem_toDigits (b := 10) (by omega) (by omega) h
  revert this; decide

theorem dec_inj {i j : Nat} (h : dec i = dec j) : i = j := by
  have := congrArg (fun l => Nat.ofDigitChars 10 l 0) h
  simpa [dec, Nat.ofDigitChars_ten_toDigits] using this

theorem dec_word {n : Nat} (o : Arith) : dec n ≠ o.word := by
  intro h
  have key : ∀ c ∈ o.word, c.isDigit = true := fun c hc => Nat.isDigit_of_mem_toDigits (b := 10) (by omega) (by omega) (h ▸ hc : c ∈ dec n)
  cases o <;> revert key <;> decide

theorem named_ne {o : Op} {p : List (List Char)} (h : Named fmt o p) : p ≠ [] := by
  cases h
  case elem => exact Expr.parts1_ne _ _
  all_goals simp

theorem named_clean (hf : Printable fmt) {o : Op} {p : List (List Char)} (h : Named fmt o p) : ∀ w ∈ p, '_' ∉ w := by
  have h1 := fun c => (hf c).1
  cases h
  case elem k hk => exact Expr.parts1_clean hf k hk
  case arith o => cases o <;> simp [Arith.word]
  case axialA o k => cases o <;> simp [Arith.word, dec_clean]
  case axialB o k => cases o <;> simp [Arith.word, dec_clean]
  all_goals simp [dec_clean, h1]

theorem dec_iff {i j : Nat} : dec i = dec j ↔ i = j := ⟨dec_inj, congrArg _⟩

theorem word_inj {o o' : Arith} (h : o.word = o'.word) : o = o' := by
  cases o <;> cases o' <;> first | rfl | (revert h; decide)


/-- Names of elementary operations are not names of others. -/
theorem elem_sep (hf : Printable fmt) {k : K1} (hk : NotCond1 k) {o : Op} {p : List (List Char)} (h : Named fmt o p) (ho : ∀ k, o ≠ .elem k) :
    k.parts fmt ≠ p := by
  intro hp
  have hw := fun c => (hf c).2
  simp [words] at hw
  cases h
  case elem k' _ => exact ho k' rfl
  case arith o => cases o <;> cases k <;> simp [K1.parts, Arith.word] at hp hk
  case axialA o _ => cases o <;> cases k <;> simp [K1.parts] at hp
  case axialB o _ => cases o <;> cases k <;> simp [K1.parts] at hp
  case flip ds =>
    have key : ∀ o : Arith, List.map dec ds ≠ [o.word] := by
      intro o h
      obtain ⟨d, _, h⟩ := List.map_eq_singleton_iff.1 h
      exact dec_word o h
    cases k
    case addL c => exact key .add (List.cons.inj hp).2.symm
    case subL c => exact key .sub (List.cons.inj hp).2.symm
    case mulL c => exact key .mul (List.cons.inj hp).2.symm
    case divL c => exact key .div (List.cons.inj hp).2.symm
    all_goals simp [K1.parts] at hp
  all_goals (cases k <;> simp [K1.parts] at hp)

/-- The name says which operation it is, given that the numbers in names say which numbers they are. -/
theorem named_inj (hf : Printable fmt) {o o' : Op} {p : List (List Char)} (h : Named fmt o p) (h' : Named fmt o' p)
    (hd : ∀ x ∈ numbersOf o, ∀ y ∈ numbersOf o', fmt x = fmt y → x = y) : o = o' := by
  by_cases e : ∃ k, o = .elem k
  · obtain ⟨k, rfl⟩ := e
    cases h
    rename_i hk
    by_cases e' : ∃ k', o' = .elem k'
    · obtain ⟨k', rfl⟩ := e'
      generalize hp : k.parts fmt = q at h'
      cases h'
      rename_i hk'
      exact congrArg _ (Expr.label1_inj hf hk hk' hd (by rw [Expr.K1.label, Expr.K1.label, hp]))
    · exact absurd rfl (elem_sep hf hk h' fun k hk => e' ⟨k, hk⟩)
  · by_cases e' : ∃ k', o' = .elem k'
    · obtain ⟨k', rfl⟩ := e'
      cases h'
      rename_i hk'
      exact absurd rfl (elem_sep hf hk' h fun k hk => e ⟨k, hk⟩)
    · generalize hp : p = q at h'
      cases h
      case elem k _ => exact absurd ⟨k, rfl⟩ e
      case arith o =>
        cases h'
        case elem k _ => exact absurd ⟨k, rfl⟩ e'
        case arith o' => rw [word_inj (List.cons.inj hp).1]
        all_goals (cases o <;> simp [Arith.word] at hp)
      case axialA o i =>
        cases h'
        case elem k _ => exact absurd ⟨k, rfl⟩ e'
        case axialA o' j => simp [dec_iff] at hp; rw [word_inj hp.1, hp.2]
        case flip ds => cases o <;> simp [Arith.word] at hp
        case cross => cases o <;> simp [Arith.word] at hp
        all_goals simp at hp
      case axialB o i =>
        cases h'
        case elem k _ => exact absurd ⟨k, rfl⟩ e'
        case axialB o' j => simp [dec_iff] at hp; rw [word_inj hp.1, hp.2]
        case flip ds => cases o <;> simp [Arith.word] at hp
        case cross => cases o <;> simp [Arith.word] at hp
        all_goals simp at hp
      all_goals cases h'
      case transpose.transpose => simp [dec_iff] at hp; rw [hp.1, hp.2]
      case extend.extend => simp [dec_iff] at hp; rw [hp.1, hp.2]
      case cross.cross => simp [dec_iff] at hp; rw [hp.1, hp.2]
      case sumAt.sumAt => simp [dec_iff] at hp; rw [hp]
      case maxAt.maxAt => simp [dec_iff] at hp; rw [hp]
      case argMaxAt.argMaxAt => simp [dec_iff] at hp; rw [hp]
      case size.size => simp [dec_iff] at hp; rw [hp]
      case flip.flip =>
        have := List.map_injective_iff.2 (fun _ _ h => dec_inj h : Function.Injective dec) (List.cons.inj hp).2
        rw [this]
      case clipNorm.clipNorm => simp at hp; rw [hd _ (by simp [numbersOf]) _ (by simp [numbersOf]) hp]
      case sample.sample => simp at hp; rw [hd _ (by simp [numbersOf]) _ (by simp [numbersOf]) hp]
      case eq.eq => exact Eq.refl _
      case neq.neq => exact Eq.refl _
      case fit.fit => exact Eq.refl _
      case sum.sum => exact Eq.refl _
      case max.max => exact Eq.refl _
      case argMax.argMax => exact Eq.refl _
      case matmul.matmul => exact Eq.refl _
      case l2norm.l2norm => exact Eq.refl _
      case asConst.asConst => exact Eq.refl _
      case nelems.nelems => exact Eq.refl _
      all_goals first
        | (exfalso; simp at hp; done)
        | (exfalso; rename_i k _; exact e' ⟨k, Eq.refl _⟩)
        | (exfalso; rename_i o; cases o <;> simp [Arith.word] at hp; done)
        | (exfalso; rename_i o _; cases o <;> simp [Arith.word] at hp)

theorem named_not_constant {o : Op} {p : List (List Char)} (h : Named fmt o p) : p ≠ ["constant".toList, "immutable".toList] := by
  intro hp
  cases h
  case elem k hk => cases k <;> simp [K1.parts] at hp
  case flip ds => simp at hp
  all_goals simp at hp

/-- The names of the library's own operations tell them apart. -/
theorem own_label_inj (hf : Printable fmt) {o o' : Op} (h : Own o) (h' : Own o') (hd : ∀ x ∈ numbersOf o, ∀ y ∈ numbersOf o', fmt x = fmt y → x = y)
    (hl : o.label fmt = o'.label fmt) : o = o' := by
  obtain ⟨p, hp⟩ := named_of_own (fmt := fmt) h
  obtain ⟨q, hq⟩ := named_of_own (fmt := fmt) h'
  rw [named_label hp, named_label hq] at hl
  have := Expr.intercalate_inj _ _ (named_ne hp) (named_ne hq) (named_clean hf hp) (named_clean hf hq) hl
  subst this
  exact named_inj hf hp hq hd

theorem own_label_ne (hf : Printable fmt) {o : Op} (h : Own o) : o.label fmt ≠ "constant_immutable".toList := by
  obtain ⟨p, hp⟩ := named_of_own (fmt := fmt) h
  intro hl
  rw [named_label hp, show "constant_immutable".toList = List.intercalate ['_'] ["constant".toList, "immutable".toList] by simp [List.intercalate]] at hl
  exact named_not_constant hp (Expr.intercalate_inj _ _ (named_ne hp) (by simp) (named_clean hf hp) (by simp) hl)

/-- Whatever is looked for is as Q says. -/
def Asks (Q : Op → Prop) (x : M) : Prop := ∀ S n S', x S = .ok (n, S') → (∀ o ∈ S.asked, Q o) → ∀ o ∈ S'.asked, Q o

variable {Q : Op → Prop}

theorem ret_asks (a : Nat) : Asks Q (ret a) := by
  intro S n S' h hS; cases h; exact hS

theorem push_asks (x : Node) : Asks Q (push x) := by
  intro S n S' h hS; cases h; exact hS

theorem note_asks {o : Op} (ho : Q o) (hS : ∀ o ∈ S.asked, Q o) : ∀ o' ∈ (note o S).asked, Q o' := by
  intro o' h
  rcases List.mem_cons.1 h with rfl | h
  · exact ho
  · exact hS _ h

theorem andThen_asks {x : M} {f : Nat → M} (hx : Asks Q x) (hf : ∀ n, Asks Q (f n)) : Asks Q (andThen x f) := by
  intro S n S' h hS
  obtain ⟨⟨m, S1⟩, h1, h2⟩ := Outcome.bind_eq_ok.mp h
  exact hf m S1 n S' h2 (hx S m S1 h1 hS)

theorem get1_asks {o : Op} {a : Nat} {mk : M} (ho : Q o) (hm : Asks Q mk) : Asks Q (get1 env o a mk) := by
  intro S n S' h hS
  unfold get1 at h
  split at h
  · cases h; exact note_asks ho hS
  · exact hm _ _ _ h (note_asks ho hS)

theorem get2_asks {o : Op} {u : Bool} {a b : Nat} (ho : Q o) : Asks Q (get2 env o u a b) := by
  intro S n S' h hS
  unfold get2 at h
  split at h
  · cases h; exact note_asks ho hS
  · exact push_asks _ _ _ _ h (note_asks ho hS)

theorem getExtract_asks {name : List Char} {f : Shape → Outcome (List Nat)} {args : List Nat} (ho : Q (.extract name f)) : Asks Q (getExtract env name f args) := by
  intro S n S' h hS
  unfold getExtract at h
  split at h
  · cases h
  · split at h
    · cases h; exact note_asks ho hS
    · exact push_asks _ _ _ _ h (note_asks ho hS)

theorem transpose_asks {i j a : Nat} (ho : ∀ i j, Q (.transpose i j)) : Asks Q (transpose env i j a) := by
  intro S n S' h hS
  unfold transpose at h
  simp only at h
  split at h
  · exact ret_asks _ _ _ _ h (note_asks (ho _ _) hS)
  · exact get1_asks (ho _ _) (push_asks _) _ _ _ h hS

theorem transposed_asks {a : Nat} (ho : ∀ i j, Q (.transpose i j)) : Asks Q (transposed env a) := by
  intro S n S' h hS
  unfold transposed at h
  split at h
  · cases h; exact note_asks (ho _ _) hS
  · exact transpose_asks ho _ _ _ h hS

theorem l2norm_asks {a : Nat} (ho : Q .l2norm) : Asks Q (l2norm env a) := by
  intro S n S' h hS
  unfold l2norm at h
  split at h
  · exact push_asks _ _ _ _ h hS
  · exact get1_asks ho (push_asks _) _ _ _ h hS

theorem onSame_asks {o : Arith} {a : Nat} {add : Op} (h1 : Q add) (h2 : Q (.elem (.pow 2))) : Asks Q (onSame env o a add) := by
  cases o with
  | add => exact get2_asks h1
  | sub => exact push_asks _
  | mul => exact get1_asks h2 (push_asks _)
  | div => exact push_asks _

theorem flag_asks (t : Bool) {a : Nat} (ho : ∀ i j, Q (.transpose i j)) : Asks Q (if t then transposed env a else ret a) := by
  cases t with
  | true => exact transposed_asks ho
  | false => exact ret_asks _

/-- Own calls look for own operations, with the numbers of the call. -/
theorem exec_asks {c : Call} (hc : OwnCall c) {l : List ℝ} (h2 : (2 : ℝ) ∈ l) (hl : ∀ x ∈ numbersIn c, x ∈ l) :
    Asks (fun o => Own o ∧ ∀ x ∈ numbersOf o, x ∈ l) (exec env c) := by
  have free : ∀ {o : Op}, Own o → numbersOf o = [] → Own o ∧ ∀ x ∈ numbersOf o, x ∈ l := by
    intro o ho hn; rw [hn]; exact ⟨ho, by simp⟩
  have hT : ∀ i j, Own (.transpose i j) ∧ ∀ x ∈ numbersOf (.transpose i j), x ∈ l := fun i j => free trivial rfl
  have hp2 : Own (.elem (.pow 2)) ∧ ∀ x ∈ numbersOf (.elem (.pow 2)), x ∈ l := ⟨trivial, by simpa [numbersOf, numbers] using h2⟩
  suffices h : Asks (fun o => Own o ∧ ∀ x ∈ numbersOf o, x ∈ l) (body env c) by
    intro S n S' he hS
    unfold exec at he
    split at he
    · exact h S n S' he hS
    · cases he
  cases c with
  | leaf => exact push_asks _
  | const d => exact push_asks _
  | elem k a => exact get1_asks ⟨hc, hl⟩ (push_asks _)
  | arith o a b =>
    simp only [body]
    split
    · exact onSame_asks (free trivial rfl) hp2
    · exact get2_asks (free trivial rfl)
  | axial o lf k a b =>
    simp only [body]
    split
    · exact onSame_asks (free trivial rfl) hp2
    · exact get2_asks (free trivial rfl)
  | cond name cmp a b => exact get2_asks (free hc rfl)
  | transpose i j a => exact transpose_asks hT
  | fit a b =>
    intro S n S' h hS
    simp only [body] at h
    split at h
    · exact ret_asks _ _ _ _ h hS
    · exact get2_asks (free (o := .fit) trivial rfl) _ _ _ h hS
  | extend i m a =>
    simp only [body]
    split
    · exact push_asks _
    · split
      · exact ret_asks _
      · exact get1_asks (free trivial rfl) (push_asks _)
  | compress name f k a => exact get1_asks (free hc rfl) (push_asks _)
  | argCompress name f k a => exact get1_asks (free hc rfl) (push_asks _)
  | mean k a =>
    cases k with
    | none =>
      simp only [body]
      refine andThen_asks (getExtract_asks (free (o := .extract _ _) (.inr ⟨rfl, allSize_eq⟩) rfl)) fun _ => ?_
      refine andThen_asks (get1_asks (free (o := .compress _ _ _) (.inl ⟨rfl, rfl⟩) rfl) (push_asks _)) fun _ => ?_
      exact get2_asks (free (o := .arith .div) trivial rfl)
    | some k =>
      simp only [body]
      refine andThen_asks (getExtract_asks (free (o := .extract _ _) (.inl ⟨k, rfl, axisSize_eq k⟩) rfl)) fun _ => ?_
      refine andThen_asks (get1_asks (free (o := .compress _ _ _) (.inl ⟨rfl, rfl⟩) rfl) (push_asks _)) fun _ => ?_
      exact get2_asks (free (o := .arith .div) trivial rfl)
  | flip ds a => exact get1_asks (free trivial rfl) (push_asks _)
  | cross i j a b => exact get2_asks (free trivial rfl)
  | conv i j a b => exact andThen_asks (get1_asks (free (o := .flip _) trivial rfl) (push_asks _)) fun _ => get2_asks (free (o := .cross _ _) trivial rfl)
  | matmul ta tb a b =>
    simp only [body]
    refine andThen_asks (flag_asks ta hT) fun _ => ?_
    refine andThen_asks (flag_asks tb hT) fun _ => ?_
    exact get2_asks (free (o := .matmul) trivial rfl)
  | l2norm a => exact l2norm_asks (free trivial rfl)
  | clipNorm cap a =>
    intro S n S' h hS
    simp only [body] at h
    split at h
    · simp only at h
      split at h
      · exact push_asks _ _ _ _ h hS
      · exact get1_asks ⟨trivial, hl⟩ (andThen_asks (l2norm_asks (free (o := .l2norm) trivial rfl)) fun _ => push_asks _) _ _ _ h hS
    · cases h
  | sample m a =>
    intro S n S' h hS
    simp only [body] at h
    split at h
    · split at h
      · exact push_asks _ _ _ _ h hS
      · cases h
    · exact get1_asks ⟨trivial, hl⟩ (push_asks _) _ _ _ h hS
  | asConst a =>
    intro S n S' h hS
    simp only [body] at h
    split at h
    · cases h; exact note_asks (free (o := .asConst) trivial rfl) hS
    · exact push_asks _ _ _ _ h (note_asks (free (o := .asConst) trivial rfl) hS)
  | extract name f args => exact getExtract_asks (free hc rfl)

end Verif.Ask
