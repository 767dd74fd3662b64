import Verif.Spec.Options
import Verif.Props.Complain

/- C40 exactly; C39 exactly. -/
namespace Obsidian.Props
open Obsidian Spec
variable {U : Univ}

/-! ### C40 -/

/-- The result of a loop that has collected `acc`, if `o` comes out of the rest. -/
def Ends (acc : List Val) (r : Res (Val × List Str)) : ListOutcome → Prop
  | .values vs => ∃ left, r = .ok (.list (acc ++ vs), left)
  | .error e => r = .err e
  | .panic => r = .crash .slice

theorem ends_before {acc : List Val} {v : Val} {r : Res (Val × List Str)} {o : ListOutcome}
    (h : Ends (acc ++ [v]) r o) : Ends acc r (o.before v) := by
  cases o with
  | values vs => obtain ⟨l, h⟩ := h; exact ⟨l, by rw [h, List.append_assoc]; rfl⟩
  | error => exact h
  | panic => exact h

/-- The loop, when the next element is to be read from `xs`. -/
def elements (t : Ty) (fuel : Nat) (xs : List Str) (acc : List Val) : Res (Val × List Str) :=
  (decode (.option t) xs).bind fun (v, rest) =>
    seqLoop (decode (.option t)) fuel false rest (acc ++ [v])

theorem decode_text : ∀ {t : Ty} {x : Str} {v : Val}, x ≠ [] → TextFor t x v → ∀ rest : List Str,
    decode t (x :: rest) = .ok (v, x :: rest)
  | .scalar k, x, v, _, h, rest => by simp only [decode, decodeScalar, parse_ok.2 h]
  | .unit, x, v, hx, h, rest => by
    cases x with
    | nil => exact absurd rfl hx
    | cons c x => simp only [TextFor] at h; subst h; rfl
  | .option t, x, v, hx, h, rest => by
    obtain ⟨w, rfl, h⟩ := h
    cases x with
    | nil => exact absurd rfl hx
    | cons c x => simp only [decode, startsEmpty, decode_text hx h rest]; rfl
  | .newtype t, x, v, hx, h, rest => by rw [decode]; exact decode_text (t := t) hx h rest
  | .seq _, _, _, _, h, _ => h.elim
  | .tuple _ _, _, _, _, h, _ => h.elim
  | .fails _, _, _, _, h, _ => h.elim

theorem decode_refused : ∀ {t : Ty} {x : Str} {e : FormError}, x ≠ [] → TextRefused t x e → ∀ rest : List Str,
    decode t (x :: rest) = .err e
  | .scalar k, x, e, _, h, rest => by simp only [decode, decodeScalar, parse_error.2 h]
  | .option t, x, e, hx, h, rest => by
    have ih := decode_refused (t := t) hx h rest
    cases x with
    | nil => exact absurd rfl hx
    | cons c x => simp only [decode, startsEmpty, ih]; rfl
  | .newtype t, x, e, hx, h, rest => by rw [decode]; exact decode_refused (t := t) hx h rest
  | .fails _, _, _, _, h, _ => by simp only [TextRefused] at h; subst h; rfl
  | .unit, _, _, _, h, _ => h.elim
  | .seq _, _, _, _, h, _ => h.elim
  | .tuple _ _, _, _, _, h, _ => h.elim

theorem text_total : ∀ {t : Ty} (x : Str), OneText t → (∃ v, TextFor t x v) ∨ ∃ e, TextRefused t x e
  | .scalar k, x, _ => by
    cases h : k.parse x with
    | ok v => exact .inl ⟨v, parse_ok.1 h⟩
    | error e => exact .inr ⟨e, parse_error.1 h⟩
  | .unit, _, _ => .inl ⟨_, rfl⟩
  | .option t, x, h =>
    (text_total (t := t) x h).imp (fun ⟨v, hv⟩ => ⟨.some v, v, rfl, hv⟩) id
  | .newtype t, x, h => text_total (t := t) x h
  | .fails e, _, _ => .inr ⟨e, rfl⟩
  | .seq _, _, h => h.elim
  | .tuple _ _, _, h => h.elim

theorem decode_some {t : Ty} {x : Str} {v : Val} (hx : x ≠ []) (h : TextFor t x v) (rest : List Str) :
    decode (.option t) (x :: rest) = .ok (.some v, x :: rest) :=
  decode_text (t := .option t) hx ⟨v, rfl, h⟩ rest

theorem seqLoop_last (f : List Str → Res (Val × List Str)) (fuel : Nat) (x : Str) (acc : List Val) :
    seqLoop f (fuel + 1) false [x] acc = .ok (.list acc, [x]) := by
  simp [seqLoop, nextElement, Res.bind]

theorem seqLoop_next {t : Ty} {fuel : Nat} {x : Str} {rest : List Str} {acc : List Val} (h : rest ≠ []) :
    seqLoop (decode (.option t)) (fuel + 1) false (x :: rest) acc = elements t fuel rest acc := by
  have : ¬ ((x :: rest).length = 1 ∧ false = false) := by
    cases rest with
    | nil => exact absurd rfl h
    | cons => simp
  rw [seqLoop, nextElement, if_neg this]; rfl

theorem elements_ends {t : Ty} {xs : List Str} {o : ListOutcome} (h : Options t xs o) :
    ∀ (fuel : Nat) (acc : List Val), xs.length ≤ fuel → Ends acc (elements t fuel xs acc) o := by
  induction h with
  | last hx hw =>
    intro fuel acc hf
    obtain ⟨n, rfl⟩ : ∃ n, fuel = n + 1 := ⟨fuel - 1, by simp at hf; omega⟩
    rw [elements, decode_some hx hw]
    exact ⟨[_], seqLoop_last (decode (.option t)) n _ (acc ++ [_])⟩
  | more hx hw hr _ ih =>
    intro fuel acc hf
    obtain ⟨n, rfl⟩ : ∃ n, fuel = n + 1 := ⟨fuel - 1, by simp at hf; omega⟩
    rw [elements, decode_some hx hw]
    show Ends acc (seqLoop _ (n + 1) false _ (acc ++ [_])) _
    rw [seqLoop_next hr]
    exact ends_before (ih n _ (by simpa using hf))
  | @wrong x e rest hx hc =>
    intro fuel acc hf
    rw [elements, decode_refused (t := .option t) hx hc]; rfl
  | emptyLast =>
    intro fuel acc hf
    obtain ⟨n, rfl⟩ : ∃ n, fuel = n + 1 := ⟨fuel - 1, by simp at hf; omega⟩
    rfl
  | emptyLoses =>
    intro fuel acc hf
    obtain ⟨n, rfl⟩ : ∃ n, fuel = n + 1 := ⟨fuel - 1, by simp at hf; omega⟩
    exact ⟨[_], seqLoop_last (decode (.option t)) n _ (acc ++ [_])⟩
  | @emptySkips y rest o hr _ ih =>
    intro fuel acc hf
    obtain ⟨n, rfl⟩ : ∃ n, fuel = n + 1 := ⟨fuel - 1, by simp at hf; omega⟩
    show Ends acc (seqLoop (decode (.option t)) (n + 1) false (y :: rest) (acc ++ [.none])) _
    rw [seqLoop_next hr]
    exact ends_before (ih n _ (by simp at hf; omega))

theorem options_total {t : Ty} (ht : OneText t) : ∀ (n : Nat) (xs : List Str), xs.length ≤ n → xs ≠ [] → ∃ o, Options t xs o
  | 0, xs, hn, hx => absurd (List.length_eq_zero_iff.1 (Nat.le_zero.1 hn)) hx
  | n + 1, [], _, hx => absurd rfl hx
  | n + 1, [[]], _, _ => ⟨_, .emptyLast⟩
  | n + 1, [[], y], _, _ => ⟨_, .emptyLoses⟩
  | n + 1, [] :: y :: z :: rest, hn, _ => by
    obtain ⟨o, h⟩ := options_total ht n (z :: rest) (by simp at hn ⊢; omega) (by simp)
    exact ⟨_, .emptySkips (by simp) h⟩
  | n + 1, (c :: x) :: rest, hn, _ => by
    rcases text_total (c :: x) ht with ⟨v, hp⟩ | ⟨e, hp⟩
    case inr => exact ⟨_, .wrong (by simp) hp⟩
    case inl =>
      cases rest with
      | nil => exact ⟨_, .last (by simp) hp⟩
      | cons y rest =>
        obtain ⟨o, h⟩ := options_total ht n (y :: rest) (by simp at hn ⊢; omega) (by simp)
        exact ⟨_, .more (by simp) hp (by simp) h⟩

/-- **C40, exactly what happens**: decoding the values `xs` of a name at `HashMap<String, Vec<Option<T>>>`
has the one outcome that `Options` describes; in particular, it panics if an empty value is reached that is
the last. (Through `form` and `query_params` there are no empty values; see C35.) -/
theorem C40_exactly {t : Ty} (ht : OneText t) (name : Str) {xs : List Str} (hne : xs ≠ []) :
    (∃ o, Options t xs o) ∧
    ∀ o, Options t xs o →
      match o, fromCowMap (.map (.seq (.option t))) [(name, xs)] with
      | .values vs, r => ∃ m, r = .ok (.map m) ∧ m.get name = some (.list vs)
      | .error e, r => r = .err e
      | .panic, r => r = .crash .slice := by
  refine ⟨options_total ht _ xs (Nat.le_refl _) hne, fun o h => ?_⟩
  have hd : decode (.seq (.option t)) xs = elements t (xs.length + 1) xs [] := by
    cases xs with
    | nil => exact absurd rfl hne
    | cons x xs =>
      have : nextElement true (x :: xs) = .ok (some (x :: xs)) := by simp [nextElement]
      rw [decode, seqLoop, this]; rfl
  have he := elements_ends h (xs.length + 1) [] (by omega)
  rw [← hd] at he
  have hf : fromCowMap (.map (.seq (.option t))) [(name, xs)] =
      ((decode (.seq (.option t)) xs).bind fun p => .ok (.map (HMap.empty.insert name p.1))) := by
    rw [fromCowMap, mapLoop]
    cases decode (.seq (.option t)) xs <;> rfl
  rw [hf]
  cases o with
  | values vs =>
    obtain ⟨l, he⟩ := he
    exact ⟨_, by rw [he]; rfl, by rw [HMap.get_insert]; simp⟩
  | error e => dsimp only [Ends] at he; rw [he]; rfl
  | panic => dsimp only [Ends] at he; rw [he]; rfl

/-- Four values, the second of which is empty: the third is skipped. -/
example : Options (.scalar .string) [s "x", [], s "y", s "z"] (.values [.some (.str (s "x")), .none, .some (.str (s "z"))]) :=
  .more (o := .values [.none, .some (.str (s "z"))]) (by decide) rfl (by simp)
    (.emptySkips (o := .values [.some (.str (s "z"))]) (by simp) (.last (by decide) rfl))

/-- A trailing empty value: a panic. -/
example : Options (.scalar .string) [s "x", []] .panic := .more (o := .panic) (by decide) rfl (by simp) .emptyLast

/-- The elements are optional integers in a newtype, twice optional. -/
example : Options (.option (.newtype (.scalar (.int true 8)))) [s "7", [], s "y", s "300"]
    (.error (.message (s "number too large to fit in target type"))) :=
  .more (o := .error _) (by decide) ⟨_, rfl, (parse_ok (k := .int true 8)).1 rfl⟩ (by simp)
    (.emptySkips (o := .error _) (by simp) (.wrong (by decide) ((parse_error (k := .int true 8)).1 rfl)))

/-! ### C39 -/

/-- **C39, exactly what happens**: of a body that can be read, the first chunk that is not empty is decoded,
and nothing if there is none; later chunks do not matter. -/
theorem C39_first_chunk {α : Type} (c : Context U) (hb : c.request.body.fails = false) {first : Bytes}
    (hf : (∃ pre post, c.request.body.chunks = pre ++ first :: post ∧ first ≠ [] ∧ ∀ x ∈ pre, x = []) ∨
      ((∀ x ∈ c.request.body.chunks, x = []) ∧ first = [])) :
    (∀ parse : Bytes → Except Crash (Except ObsidianError α), (c.form parse).map (·.1) = parse first) ∧
    (∀ fromSlice : Bytes → Except Str α, (c.json fromSlice).1 = (fromSlice first).mapError .jsonError) := by
  have hagg : c.request.body.aggregateChunk = some first := by
    rw [Body.aggregateChunk, hb]
    simp only [Bool.false_eq_true, if_false, Option.some.injEq]
    rcases hf with ⟨pre, post, he, hne, hpre⟩ | ⟨hall, rfl⟩
    · have h1 : pre.find? (fun c => !c.isEmpty) = none :=
        List.find?_eq_none.2 fun x hx => by simp [hpre x hx]
      rw [he, List.find?_append, h1, List.find?_cons_of_pos (by simpa using hne)]; rfl
    · have h1 : c.request.body.chunks.find? (fun c => !c.isEmpty) = none :=
        List.find?_eq_none.2 fun x hx => by simp [hall x hx]
      rw [h1]; rfl
  refine ⟨fun parse => ?_, fun fromSlice => ?_⟩
  · simp only [Context.form, Context.takeBody, hagg]
    cases parse first <;> rfl
  · simp only [Context.json, Context.takeBody, hagg]
    cases fromSlice first <;> rfl

/-- Three chunks, the first of which is empty: the second is decoded, the third is lost. -/
example : ∃ pre post, (⟨[[], utf8 (s "a=1"), utf8 (s "&b=2")], false⟩ : Body).chunks = pre ++ utf8 (s "a=1") :: post ∧
    utf8 (s "a=1") ≠ [] ∧ ∀ x ∈ pre, x = [] :=
  ⟨[[]], [utf8 (s "&b=2")], rfl, by decide +kernel, by simp⟩

end Obsidian.Props
