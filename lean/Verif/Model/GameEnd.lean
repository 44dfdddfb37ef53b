import Verif.Model.Game

/-!
# What `BaseVideo` does to the game board when a game has ended, and `BaseVideo::set_board`
-/

namespace Ms.MSB

/-- `win_then_flag_all_mine`, base_video.rs 961-973: nothing unless the state is `Win`; every mark 10 becomes
11. -/
def winThenFlagAllMine (s : MSB) : MSB :=
  if s.state ≠ .win then s
  else { s with gameBoard := s.gameBoard.map fun l => l.map fun x => if x = 10 then 11 else x }

/-- `loss_then_open_all_mine`, base_video.rs 976-995: nothing unless the state is `Loss`; a loop over
`0..height`, `0..width` (which `BaseVideo` keeps equal to the sizes of the machine; here `row`, `column`). -/
def lossThenOpenAllMine (s : MSB) : MSB :=
  if s.state ≠ .loss then s
  else { s with gameBoard := (cells s.row s.column).foldl (fun g p =>
      if s.board.get p.1 p.2 = -1 ∧ g.get p.1 p.2 = 10 then g.set p.1 p.2 16 else g) s.gameBoard }

/-- `BaseVideo::set_board`, base_video.rs 650-679, as far as the machine is concerned (`mine_num` and `level`
are left out): refused (`false`) if the game has ended or the size differs; otherwise the board is replaced
and nothing else changes. -/
def setBoard (s : MSB) (v : View) : MSB × Bool :=
  match s.state with
  | .playing | .ready | .preFlaging =>
    if s.column ≠ v.col ∨ s.row ≠ v.row then (s, false) else ({ s with board := v }, true)
  | _ => (s, false)

end Ms.MSB
