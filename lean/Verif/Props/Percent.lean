import Verif.Props.Sound
import Verif.Props.Respond
import Verif.Spec.UrlEncoded

/-
C63: texts written in a path with percent signs.
-/
namespace Obsidian.Props
open Obsidian Spec
variable {M H : Type}

theorem pathBytes_append {a b e f : List UInt8} (h : PathBytes a e) (h' : PathBytes b f) : PathBytes (a ++ b) (e ++ f) := by
  induction h with
  | nil => exact h'
  | cons h1 _ ih => rw [List.cons_append, List.append_assoc]; exact .cons h1 ih

theorem pathBytes_plain {a : List UInt8} (h : ∀ b ∈ a, b ≠ 37 ∧ b ≠ 47) : PathBytes a a := by
  induction a with
  | nil => exact .nil
  | cons b a ih =>
    exact .cons (e := [b]) (.plain (h b List.mem_cons_self).1 (h b List.mem_cons_self).2) (ih fun b hb => h b (List.mem_cons_of_mem _ hb))

/-- **C63 fails**: with the route `/hello/:name`, the request that asks for `/hello/Jürgen`, which can
only be written `/hello/J%C3%BCrgen`, gives the handler the name `J%C3%BCrgen`. -/
theorem C63_false :
    let path := s "/hello/J%C3%BCrgen"
    ∃ r : Router Nat Nat, build [.get (s "/hello/:name") 1] = (r, none) ∧
      handlerFor r .get path = some 1 ∧
      segments path = [s "hello", s "J%C3%BCrgen"] ∧ WritesSegment (s "Jürgen") (s "J%C3%BCrgen") ∧
      paramFor r path (s "name") = some (s "J%C3%BCrgen") ∧ paramFor r path (s "name") ≠ some (s "Jürgen") := by
  dsimp only
  have hb : (build [(Reg.get (s "/hello/:name") 1 : Reg Nat Nat)]).2 = none := by decide +kernel
  have hp : paramFor (build [(Reg.get (s "/hello/:name") 1 : Reg Nat Nat)]).1 (s "/hello/J%C3%BCrgen") (s "name") =
      some (s "J%C3%BCrgen") := by decide +kernel
  refine ⟨_, build_eq hb, by decide +kernel, by decide +kernel, ?_, hp, by rw [hp]; decide +kernel⟩
  have e1 : utf8 (s "Jürgen") = [74] ++ ([0xC3, 0xBC] ++ [114, 103, 101, 110]) := by decide +kernel
  have e2 : utf8 (s "J%C3%BCrgen") = [74] ++ (([37, 67, 51] ++ ([37, 66, 67] ++ [])) ++ [114, 103, 101, 110]) := by decide +kernel
  rw [WritesSegment, e1, e2]
  refine pathBytes_append (pathBytes_plain (by decide)) (pathBytes_append (.cons (.percent (m := 12) (n := 3) ?_ ?_ ?_)
    (.cons (.percent (m := 11) (n := 12) ?_ ?_ ?_) .nil)) (pathBytes_plain (by decide)))
  all_goals first | exact .inr (by decide +kernel) | decide +kernel

/-- **C63 fails** for the names of routes, too: the route `/café` is not found by the request
`/caf%C3%A9`. -/
theorem C63_false_route :
    ∃ r : Router Nat Nat, build [.get (s "/café") 1] = (r, none) ∧
      WritesSegment (s "café") (s "caf%C3%A9") ∧
      handlerFor r .get (s "/café") = some 1 ∧ isFound r (s "/caf%C3%A9") = false := by
  have hb : (build [(Reg.get (s "/café") 1 : Reg Nat Nat)]).2 = none := by decide +kernel
  refine ⟨_, build_eq hb, ?_, by decide +kernel, by decide +kernel⟩
  have e1 : utf8 (s "café") = [99, 97, 102] ++ [0xC3, 0xA9] := by decide +kernel
  have e2 : utf8 (s "caf%C3%A9") = [99, 97, 102] ++ ([37, 67, 51] ++ ([37, 65, 57] ++ [])) := by decide +kernel
  rw [WritesSegment, e1, e2]
  refine pathBytes_append (pathBytes_plain (by decide)) (.cons (.percent (m := 12) (n := 3) ?_ ?_ ?_)
    (.cons (.percent (m := 10) (n := 9) ?_ ?_ ?_) .nil))
  all_goals first | exact .inr (by decide +kernel) | decide +kernel

theorem pathBytes_length {a e : List UInt8} (h : PathBytes a e) :
    a.length ≤ e.length ∧ (37 ∉ e → a = e) ∧ (37 ∈ e → a.length < e.length) := by
  induction h with
  | nil => exact ⟨Nat.le_refl _, fun _ => rfl, fun h => nomatch h⟩
  | @cons b bs e es h1 _ ih =>
    obtain ⟨i1, i2, i3⟩ := ih
    cases h1 with
    | plain n1 n2 =>
      refine ⟨by simpa using i1, fun hn => ?_, fun hn => ?_⟩
      · rw [i2 (fun h => hn (List.mem_append_right _ h))]; rfl
      · rcases List.mem_append.1 hn with hn | hn
        · rw [List.mem_singleton] at hn; exact absurd hn.symm n1
        · simpa using i3 hn
    | percent h2 h3 h4 =>
      refine ⟨by simp only [List.length_append, List.length_cons, List.length_nil]; omega, fun hn => absurd (by simp) hn, fun _ => ?_⟩
      simp only [List.length_append, List.length_cons, List.length_nil]; omega

/-- **C63, what holds**: if a parameter is written by the client as `seg`, which stands for `text`, then
the handler gets `text` exactly if no percent sign was used. Missing: the other ways to write a text,
which are not decoded. -/
theorem C63_plain_partial {prog : List (Reg M H)} {r : Router M H}
    (hb : build prog = (r, none)) {ss : List Str} {m : Method} {h : H}
    (he : ⟨ss, .route m h⟩ ∈ logOf prog) (hs : NoStar ss) {path : Str} {b : List (Str × Str)}
    (hm : Matches ss (segments path) b) {x seg text : Str} (hx : b.lookup x = some seg) (hw : WritesSegment text seg) :
    handlerFor r m path = some h ∧ (paramFor r path x = some text ↔ 37 ∉ utf8 seg) := by
  obtain ⟨_, h1, h2⟩ := C02_parameter_routes_reachable hb he hs hm
  refine ⟨h1, ?_⟩
  rw [h2, hx]
  obtain ⟨_, p1, p2⟩ := pathBytes_length hw
  constructor
  · rintro e hn
    injection e with e
    rw [e] at p2
    exact Nat.lt_irrefl _ (p2 (by rw [← e]; exact hn))
  · intro hn
    have := fromUtf8_eq.2 (p1 hn)
    rw [fromUtf8_eq.2 rfl] at this
    exact this

example : ∃ r, build demo = (r, none) ∧ handlerFor r .get (s "/items/7/parts/a+b") = some 4 ∧
    paramFor r (s "/items/7/parts/a+b") (s "part") = some (s "a+b") := by
  refine ⟨_, build_eq demo_ok, ?_⟩
  have := C63_plain_partial (build_eq demo_ok)
    (ss := segments (s "/items/:id/parts/:part")) (m := .get) (h := 4) (by decide +kernel) (by decide +kernel)
    (path := s "/items/7/parts/a+b") (b := [(s "id", s "7"), (s "part", s "a+b")])
    (.static (by decide +kernel) (by decide +kernel) (.param (.static (by decide +kernel)
      (by decide +kernel) (.param .nil))))
    (x := s "part") (seg := s "a+b") (text := s "a+b") (by decide +kernel) (pathBytes_plain (by decide +kernel))
  exact ⟨this.1, this.2.2 (by decide +kernel)⟩

end Obsidian.Props
