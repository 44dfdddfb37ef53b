import Verif.Model.Player

/-!
# The player behind the Python and JavaScript classes

Their method for seeking by time is the library's own (`Player.setTime`); so are `get_game_board` and
`get_game_board_poss`.  Their setter of the current event is not.
-/

namespace Ms

/-- The setter `current_event_id` of the Python classes `AvfVideo`, `EvfVideo`, `MvfVideo`, `RmvVideo`
(python_package/src/avf_video.rs, evf_video.rs, mvf_video.rs, rmv_video.rs 306-309), `BaseVideo`
(python_package/src/base_video.rs 368-371) and of the JavaScript classes of the same names (wasm/src/board.rs 405-408): it
assigns the field, and does nothing else. -/
def Player.assign (P : Player) (id : Nat) : Player := { P with cur := id }

end Ms
