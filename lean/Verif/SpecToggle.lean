import Verif.SpecHand

/-! # Event names that leave open which button moved, or whether it was pressed or let go -/

namespace Ms.Spec

/-- What the name stands for, the buttons and the middle button (`true`: down) being as they are: `l`, `r`, `m` is a press of
a button that is up and the release of one that is down; `cc` is the press of the second button; `crl` and `crr` are the
release of the left and of the right button of two that are down. -/
inductive StandsFor : Buttons → Bool → Ev → Ev → Prop
  | l_press {r m : Bool} : StandsFor ⟨false, r⟩ m .l .lc
  | l_release {r m : Bool} : StandsFor ⟨true, r⟩ m .l .lr
  | r_press {l m : Bool} : StandsFor ⟨l, false⟩ m .r .rc
  | r_release {l m : Bool} : StandsFor ⟨l, true⟩ m .r .rr
  | m_press {b : Buttons} : StandsFor b false .m .mc
  | m_release {b : Buttons} : StandsFor b true .m .mr
  | cc_left {m : Bool} : StandsFor ⟨false, true⟩ m .cc .lc
  | cc_right {m : Bool} : StandsFor ⟨true, false⟩ m .cc .rc
  | crl {m : Bool} : StandsFor ⟨true, true⟩ m .crl .lr
  | crr {m : Bool} : StandsFor ⟨true, true⟩ m .crr .rr

/-- A hand on a mouse with three buttons. -/
inductive Hand3 : Buttons → Bool → Ev → Buttons → Bool → Prop
  | two {b b' : Buttons} {m : Bool} {e : Ev} : HandMove b e b' → Hand3 b m e b' m
  | mc {b : Buttons} : Hand3 b false .mc b true
  | mr {b : Buttons} : Hand3 b true .mr b false

/-- The second list is the first with every such name replaced by what it stands for; it is something a hand can do. -/
inductive Reads : Buttons → Bool → List (Ev × Pos) → List (Ev × Pos) → Prop
  | nil {b : Buttons} {m : Bool} : Reads b m [] []
  | same {b b' : Buttons} {m m' : Bool} {e : Ev} {p : Pos} {l l' : List (Ev × Pos)} : Hand3 b m e b' m' → Reads b' m' l l' →
      Reads b m ((e, p) :: l) ((e, p) :: l')
  | name {b b' : Buttons} {m m' : Bool} {e e' : Ev} {p : Pos} {l l' : List (Ev × Pos)} : StandsFor b m e e' →
      Hand3 b m e' b' m' → Reads b' m' l l' → Reads b m ((e, p) :: l) ((e', p) :: l')

end Ms.Spec
