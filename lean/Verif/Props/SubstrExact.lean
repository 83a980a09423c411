import Verif.Props.StrVal
/-! Property C91: what `substr`, `head`, `tail` and `shorter` give, for every argument of their types (include/strval.h:465-491). -/
namespace Strpp.SV
open Spec Arr

variable {s : State} {w : Nat} {t : List UCS4}

/-- C91. `substr(at, len)` for every `at` (unsigned) and every `len` (int): all characters from `at` on if `len` is -1, none if it
is less, and at most `len` of them otherwise. The new string is the only one that changes. -/
theorem C91_substr (S : Type) (h : Reached s) (hv : view s w = some t) (at_ : Nat) (len : Int) (hl : -2147483648 ≤ len ∧ len < 2147483648) :
    Makes (S := S) s (.substr w at_ len) (if len < -1 then [] else if len = -1 then t.drop at_ else (t.drop at_).take len.toNat) :=
  C25_substr S h hv at_ len hl

/-- C91. `head(n)` for every unsigned `n`: the first `n` characters, all if there are fewer; but nothing from 2^31 on, except
for 2^32-1, which is all. -/
theorem C91_head (S : Type) (h : Reached s) (hv : view s w = some t) (n : Nat) (hn : n < 4294967296) :
    Makes (S := S) s (.head w n) (if n < 2147483648 ∨ n = 4294967295 then t.take n else []) := by
  by_cases hb : n < 2147483648 ∨ n = 4294967295
  · rw [if_pos hb]
    exact C25_head S h hv n hb
  · rw [if_neg hb]
    have ht : toInt n = (n : Int) - 4294967296 := by unfold toInt; rw [if_neg (by omega)]
    obtain ⟨s', e, h1, h2⟩ := C25_substr S h hv 0 (toInt n) (by omega)
    refine ⟨s', e, ?_, h2⟩
    rw [h1, if_pos (by omega)]

/-- C91. `tail(n)` for every unsigned `n`: the last `n` characters, none if there are fewer. -/
theorem C91_tail (S : Type) (h : Reached s) (hv : view s w = some t) (n : Nat) (hn : n < 4294967296) :
    Makes (S := S) s (.tail w n) (if n ≤ t.length then t.drop (t.length - n) else []) := C25_tail S h hv n hn

/-- C91. `shorter(n)` for every unsigned `n`: all but the last `n` characters; beyond the length, all for `length()+1` and for
`n` above `length()+2^31`, nothing for those between. -/
theorem C91_shorter (S : Type) (h : Reached s) (hv : view s w = some t) (n : Nat) (hn : n < 4294967296) :
    Makes (S := S) s (.shorter w n)
      (if n ≤ t.length then t.take (t.length - n) else if n = t.length + 1 ∨ t.length + 2147483648 < n then t else []) := by
  by_cases hb : n ≤ t.length
  · rw [if_pos hb]
    exact C25_shorter S h hv n hb
  · rw [if_neg hb]
    obtain ⟨x, b, pre, post, hx, hb', hd, he⟩ := h.inv.1.txt hv
    have hcap := hd.cap
    have hnum := hd.num
    simp only at hnum
    have hw : wrap ((t.length : Int) - n) = t.length + 4294967296 - n := by unfold wrap; omega
    have key : ∀ u, Makes (S := S) s (.substr w 0 (toInt (t.length + 4294967296 - n))) u → Makes (S := S) s (.shorter w n) u := by
      rintro u ⟨s', e, h1, h2⟩
      refine ⟨s', ?_, h1, h2⟩
      show shorter s w n = _
      unfold shorter
      rw [getVar_ok hx, res_bind_ok, hnum, hw]
      exact e
    apply key
    have hr : -2147483648 ≤ toInt (t.length + 4294967296 - n) ∧ toInt (t.length + 4294967296 - n) < 2147483648 := by
      unfold toInt; split <;> omega
    have hm := C25_substr S h hv 0 _ hr
    by_cases h1 : n = t.length + 1
    · have : toInt (t.length + 4294967296 - n) = -1 := by unfold toInt; rw [if_neg (by omega)]; omega
      rw [this, if_neg (by omega), if_pos rfl, List.drop_zero] at hm
      rw [if_pos (Or.inl h1), this]
      exact hm
    · by_cases h2 : t.length + 2147483648 < n
      · have : toInt (t.length + 4294967296 - n) = ((t.length + 4294967296 - n : Nat) : Int) := by unfold toInt; rw [if_pos (by omega)]
        rw [this, if_neg (by omega), if_neg (by omega), List.drop_zero, List.take_of_length_le (by omega)] at hm
        rw [if_pos (Or.inr h2), this]
        exact hm
      · have : toInt (t.length + 4294967296 - n) < -1 := by unfold toInt; rw [if_neg (by omega)]; omega
        rw [if_pos this] at hm
        rw [if_neg (by omega)]
        exact hm

/-- So `head(n)` and the rest put together are the string again, for every `n` that is an int. -/
theorem C91_head_and_rest (S : Type) (h : Reached s) (hv : view s w = some t) (n : Nat) (hn : n < 2147483648) :
    ∃ a b, a ++ b = t ∧ Makes (S := S) s (.head w n) a ∧ Makes (S := S) s (.substr w n (-1)) b := by
  refine ⟨t.take n, t.drop n, List.take_append_drop n t, ?_, ?_⟩
  · exact C25_head S h hv n (Or.inl hn)
  · have := C25_substr S h hv n (-1) (by omega)
    rwa [if_neg (by omega), if_pos rfl] at this

/-- of "abc": shorter(1), shorter(4), shorter(5), shorter(2^32-1), head(2^31), head(2^32-1), tail(2), tail(4) -/
example : showsAfter [.ofC [0x61#8, 0x62#8, 0x63#8, 0#8], .shorter 0 1] 1 = .ok [0x61#8, 0x62#8] ∧
    showsAfter [.ofC [0x61#8, 0x62#8, 0x63#8, 0#8], .shorter 0 4] 1 = .ok [0x61#8, 0x62#8, 0x63#8] ∧
    showsAfter [.ofC [0x61#8, 0x62#8, 0x63#8, 0#8], .shorter 0 5] 1 = .ok [] ∧
    showsAfter [.ofC [0x61#8, 0x62#8, 0x63#8, 0#8], .shorter 0 4294967295] 1 = .ok [0x61#8, 0x62#8, 0x63#8] ∧
    showsAfter [.ofC [0x61#8, 0x62#8, 0x63#8, 0#8], .head 0 2147483648] 1 = .ok [] ∧
    showsAfter [.ofC [0x61#8, 0x62#8, 0x63#8, 0#8], .head 0 4294967295] 1 = .ok [0x61#8, 0x62#8, 0x63#8] ∧
    showsAfter [.ofC [0x61#8, 0x62#8, 0x63#8, 0#8], .tail 0 2] 1 = .ok [0x62#8, 0x63#8] ∧
    showsAfter [.ofC [0x61#8, 0x62#8, 0x63#8, 0#8], .tail 0 4] 1 = .ok [] := by decide +kernel

end Strpp.SV
