import Verif.Model.Filters

/-! Model of the summaries of entropies in `src/python/ficus/legacy/analysis/event_log_analysis_entropy.py` (24-53, 275-297).
Numbers are real numbers; `none` stands for numpy's `nan`. -/

namespace Ficus
variable {E : Type} [HasName E]

/-- `calculate_default_entropy_sum`, event_log_analysis_entropy.py:36-40 with 24-25. -/
noncomputable def defaultEntropySum (laplace : Bool) (log : Log E) (ignored : Option (List String) := none) : Except PyErr ℝ :=
  (calculateEntropies laplace log ignored).map entropySum

/-- `create_entropies_df`, event_log_analysis_entropy.py:50-53: the rows of the table. The parameter `sort` is the external
`DataFrame.sort_values` with `ascending=False`. -/
noncomputable def entropiesTable (sort : List (String × ℝ) → List (String × ℝ)) (log : Log E) :
    Except PyErr (List (String × ℝ)) :=
  (calculateEntropies false log).map sort

/-- `calculate_position_entropies_sum`, event_log_analysis_entropy.py:275-277 with 24-25. -/
noncomputable def positionSum (log : Log E) (ign : Option IgnoredEvents := none) : Except PyErr (Option ℝ) :=
  (calculatePositionEntropies log ign).map (fun d => sumNan (d.map Prod.snd))

/-- `calculate_position_entropies_fast_sum`, event_log_analysis_entropy.py:280-284 with 24-25. -/
noncomputable def positionFastSum (log : Log E) (ign : Option IgnoredEvents := none)
    (positions : Option (List TracePositions) := none) : Except PyErr (Option ℝ) :=
  (calculatePositionEntropiesFast log ign positions).map (fun d => sumNan (d.map Prod.snd))

/-- The mean of numbers: numpy gives `nan` for no numbers and if one of them is `nan`;
used by `numpy.var` in event_log_analysis_entropy.py:293. -/
noncomputable def meanNan (l : List (Option ℝ)) : Option ℝ :=
  match sumNan l with
  | none => none
  | some s => if l.length = 0 then none else some (s / l.length)

/-- `numpy.var(l)`: the mean of the squared distances to the mean; used in event_log_analysis_entropy.py:293. -/
noncomputable def varNan (l : List (Option ℝ)) : Option ℝ :=
  match meanNan l with
  | none => none
  | some m => meanNan (l.map (fun x => x.map (fun r => (r - m) ^ 2)))

/-- `numpy.std(l)`: the root of the variance; used in event_log_analysis_entropy.py:297. -/
noncomputable def stdNan (l : List (Option ℝ)) : Option ℝ := (varNan l).map Real.sqrt

/-- `calculate_pos_entropy_var`, event_log_analysis_entropy.py:292-293. -/
noncomputable def positionVar (log : Log E) : Except PyErr (Option ℝ) :=
  (calculatePositionEntropiesFast log).map (fun d => varNan (d.map Prod.snd))

/-- `calculate_pos_entropy_std`, event_log_analysis_entropy.py:296-297. -/
noncomputable def positionStd (log : Log E) : Except PyErr (Option ℝ) :=
  (calculatePositionEntropiesFast log).map (fun d => stdNan (d.map Prod.snd))

/-- The values that `draw_position_entropies_histogram`, event_log_analysis_entropy.py:287-289, hands to `plt.hist`. -/
noncomputable def positionHistogram (log : Log E) : Except PyErr (List (Option ℝ)) :=
  (calculatePositionEntropiesFast log).map (fun d => d.map Prod.snd)

end Ficus
