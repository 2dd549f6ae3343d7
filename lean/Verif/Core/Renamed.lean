import Verif.Common
import Verif.Evaluation.Report

/-!
# Renamed classes (C267)

Functions that keep the former name of a class working: `KNN(...)` warns and returns
`KNNClassifier(...)`. Modelled are the signatures (names, order, default expressions), the
arguments passed on and the way Python binds the arguments of a call to parameters. Not
modelled: the warning, what the constructors do with their arguments. Defaults are compared as
expressions; function and class stand in the same module.
-/

namespace Verif.Renamed

open Verif

/-- A text. -/
abbrev Txt := List Char

/-- What a parameter is bound to: the object the caller passed, or the value of a default
expression. -/
inductive Arg (V : Type) where
  | given (v : V)
  | dflt (e : Txt)
  deriving DecidableEq, Repr

/-- A function standing for a renamed class: its name and signature (parameter names with
default expressions), the class it constructs, the keyword arguments it passes (keyword, name of
its own parameter), the signature of the constructor of the class. -/
structure Alias where
  name : Txt
  params : List (Txt × Option Txt)
  cls : Txt
  forward : List (Txt × Txt)
  clsParams : List (Txt × Option Txt)

/-- Parameters are bound from left to right: positional arguments first, then keywords, then
defaults (Python reference, "Calls"). -/
def fill {V : Type} (kw : List (Txt × Arg V)) :
    List (Txt × Option Txt) → List (Arg V) → Except PyErr (List (Txt × Arg V))
  | [], _ => .ok []
  | (p, _) :: ps, v :: pos =>
      if p ∈ kw.map (·.1) then .error .typeError
      else (fill kw ps pos).map fun env => (p, v) :: env
  | (p, d) :: ps, [] =>
      match kw.lookup p, d with
      | some v, _ => (fill kw ps []).map fun env => (p, v) :: env
      | none, some e => (fill kw ps []).map fun env => (p, .dflt e) :: env
      | none, none => .error .typeError

/-- A call binds its arguments or raises `TypeError`: too many positional arguments, an unknown
or repeated keyword, a parameter given twice or not at all (Python reference, "Calls"). -/
def bind {V : Type} (ps : List (Txt × Option Txt)) (pos : List (Arg V)) (kw : List (Txt × Arg V)) :
    Except PyErr (List (Txt × Arg V)) :=
  if ps.length < pos.length then .error .typeError
  else if ¬ (∀ k ∈ kw.map (·.1), k ∈ ps.map (·.1)) then .error .typeError
  else if ¬ (kw.map (·.1)).Nodup then .error .typeError
  else fill kw ps pos

/-- The arguments of a user's call. -/
def user {V : Type} (pos : List V) (kw : List (Txt × V)) : List (Arg V) × List (Txt × Arg V) :=
  (pos.map .given, kw.map fun p => (p.1, .given p.2))

/-- Constructing the class directly: the class with its bound parameters. -/
def construct {V : Type} (a : Alias) (pos : List V) (kw : List (Txt × V)) :
    Except PyErr (Txt × List (Txt × Arg V)) :=
  (bind a.clsParams (user pos kw).1 (user pos kw).2).map fun env => (a.cls, env)

/-- The value of a local name of the function. -/
def localVal {V : Type} (env : List (Txt × Arg V)) (kp : Txt × Txt) : Except PyErr (Txt × Arg V) :=
  match env.lookup kp.2 with
  | some v => .ok (kp.1, v)
  | none => .error .nameError

/-- Calling the function of the old name (for example lazy/knn_classifier.py 10-16): bind the
arguments, construct the class with the keyword arguments listed. -/
def Alias.call {V : Type} (a : Alias) (pos : List V) (kw : List (Txt × V)) :
    Except PyErr (Txt × List (Txt × Arg V)) :=
  match bind a.params (user pos kw).1 (user pos kw).2 with
  | .error e => .error e
  | .ok env =>
      match a.forward.mapM (localVal env) with
      | .error e => .error e
      | .ok args =>
          match bind a.clsParams [] args with
          | .error e => .error e
          | .ok r => .ok (a.cls, r)

/-- `KNNAdwin`, lazy/knn_adwin.py 10-16; `KNNADWINClassifier.__init__`,
lazy/knn_adwin.py 89-93. -/
def knnAdwin : Alias where
  name := cs!"KNNAdwin"
  params := [(cs!"n_neighbors", some cs!"5"), (cs!"max_window_size", some cs!"1000"),
    (cs!"leaf_size", some cs!"30")]
  cls := cs!"KNNADWINClassifier"
  forward := [(cs!"n_neighbors", cs!"n_neighbors"), (cs!"max_window_size", cs!"max_window_size"),
    (cs!"leaf_size", cs!"leaf_size")]
  clsParams := [(cs!"n_neighbors", some cs!"5"), (cs!"max_window_size", some cs!"1000"),
    (cs!"leaf_size", some cs!"30"), (cs!"metric", some cs!"'euclidean'")]

/-- `KNN`, lazy/knn_classifier.py 10-16; `KNNClassifier.__init__`,
lazy/knn_classifier.py 84-88. -/
def knn : Alias where
  name := cs!"KNN"
  params := [(cs!"n_neighbors", some cs!"5"), (cs!"max_window_size", some cs!"1000"),
    (cs!"leaf_size", some cs!"30")]
  cls := cs!"KNNClassifier"
  forward := [(cs!"n_neighbors", cs!"n_neighbors"), (cs!"max_window_size", cs!"max_window_size"),
    (cs!"leaf_size", cs!"leaf_size")]
  clsParams := [(cs!"n_neighbors", some cs!"5"), (cs!"max_window_size", some cs!"1000"),
    (cs!"leaf_size", some cs!"30"), (cs!"metric", some cs!"'euclidean'")]

/-- `SAMKNN`, lazy/sam_knn.py 16-26; `SAMKNNClassifier.__init__`,
lazy/sam_knn.py 105-111. -/
def samknn : Alias where
  name := cs!"SAMKNN"
  params := [(cs!"n_neighbors", some cs!"5"), (cs!"weighting", some cs!"'distance'"),
    (cs!"max_window_size", some cs!"5000"), (cs!"ltm_size", some cs!"0.4"),
    (cs!"min_stm_size", some cs!"50"), (cs!"stm_size_option", some cs!"'maxACCApprox'"),
    (cs!"use_ltm", some cs!"True")]
  cls := cs!"SAMKNNClassifier"
  forward := [(cs!"n_neighbors", cs!"n_neighbors"), (cs!"weighting", cs!"weighting"),
    (cs!"max_window_size", cs!"max_window_size"), (cs!"ltm_size", cs!"ltm_size"),
    (cs!"min_stm_size", cs!"min_stm_size"), (cs!"stm_size_option", cs!"stm_size_option"),
    (cs!"use_ltm", cs!"use_ltm")]
  clsParams := [(cs!"n_neighbors", some cs!"5"), (cs!"weighting", some cs!"'distance'"),
    (cs!"max_window_size", some cs!"5000"), (cs!"ltm_size", some cs!"0.4"),
    (cs!"min_stm_size", some cs!"50"), (cs!"stm_size_option", some cs!"'maxACCApprox'"),
    (cs!"use_ltm", some cs!"True")]

/-- `AccuracyWeightedEnsemble`, meta/accuracy_weighted_ensemble.py 11-21; `AccuracyWeightedEnsembleClassifier.__init__`,
meta/accuracy_weighted_ensemble.py 124-125. -/
def accuracyWeightedEnsemble : Alias where
  name := cs!"AccuracyWeightedEnsemble"
  params := [(cs!"n_estimators", some cs!"10"), (cs!"n_kept_estimators", some cs!"30"),
    (cs!"base_estimator", some cs!"NaiveBayes()"), (cs!"window_size", some cs!"200"),
    (cs!"n_splits", some cs!"5")]
  cls := cs!"AccuracyWeightedEnsembleClassifier"
  forward := [(cs!"n_estimators", cs!"n_estimators"), (cs!"n_kept_estimators", cs!"n_kept_estimators"),
    (cs!"base_estimator", cs!"base_estimator"), (cs!"window_size", cs!"window_size"),
    (cs!"n_splits", cs!"n_splits")]
  clsParams := [(cs!"n_estimators", some cs!"10"), (cs!"n_kept_estimators", some cs!"30"),
    (cs!"base_estimator", some cs!"NaiveBayes()"), (cs!"window_size", some cs!"200"),
    (cs!"n_splits", some cs!"5")]

/-- `AdaptiveRandomForest`, meta/adaptive_random_forests.py 18-61; `AdaptiveRandomForestClassifier.__init__`,
meta/adaptive_random_forests.py 214-235. -/
def adaptiveRandomForest : Alias where
  name := cs!"AdaptiveRandomForest"
  params := [(cs!"n_estimators", some cs!"10"), (cs!"max_features", some cs!"'auto'"),
    (cs!"disable_weighted_vote", some cs!"False"), (cs!"lambda_value", some cs!"6"),
    (cs!"performance_metric", some cs!"'acc'"),
    (cs!"drift_detection_method", some cs!"ADWIN(0.001)"),
    (cs!"warning_detection_method", some cs!"ADWIN(0.01)"),
    (cs!"max_byte_size", some cs!"33554432"), (cs!"memory_estimate_period", some cs!"2000000"),
    (cs!"grace_period", some cs!"50"), (cs!"split_criterion", some cs!"'info_gain'"),
    (cs!"split_confidence", some cs!"0.01"), (cs!"tie_threshold", some cs!"0.05"),
    (cs!"binary_split", some cs!"False"), (cs!"stop_mem_management", some cs!"False"),
    (cs!"remove_poor_atts", some cs!"False"), (cs!"no_preprune", some cs!"False"),
    (cs!"leaf_prediction", some cs!"'nba'"), (cs!"nb_threshold", some cs!"0"),
    (cs!"nominal_attributes", some cs!"None"), (cs!"random_state", some cs!"None")]
  cls := cs!"AdaptiveRandomForestClassifier"
  forward := [(cs!"n_estimators", cs!"n_estimators"), (cs!"max_features", cs!"max_features"),
    (cs!"disable_weighted_vote", cs!"disable_weighted_vote"),
    (cs!"lambda_value", cs!"lambda_value"), (cs!"performance_metric", cs!"performance_metric"),
    (cs!"drift_detection_method", cs!"drift_detection_method"),
    (cs!"warning_detection_method", cs!"warning_detection_method"),
    (cs!"max_byte_size", cs!"max_byte_size"),
    (cs!"memory_estimate_period", cs!"memory_estimate_period"),
    (cs!"grace_period", cs!"grace_period"), (cs!"split_criterion", cs!"split_criterion"),
    (cs!"split_confidence", cs!"split_confidence"), (cs!"tie_threshold", cs!"tie_threshold"),
    (cs!"binary_split", cs!"binary_split"),
    (cs!"stop_mem_management", cs!"stop_mem_management"),
    (cs!"remove_poor_atts", cs!"remove_poor_atts"), (cs!"no_preprune", cs!"no_preprune"),
    (cs!"leaf_prediction", cs!"leaf_prediction"), (cs!"nb_threshold", cs!"nb_threshold"),
    (cs!"nominal_attributes", cs!"nominal_attributes"), (cs!"random_state", cs!"random_state")]
  clsParams := [(cs!"n_estimators", some cs!"10"), (cs!"max_features", some cs!"'auto'"),
    (cs!"disable_weighted_vote", some cs!"False"), (cs!"lambda_value", some cs!"6"),
    (cs!"performance_metric", some cs!"'acc'"),
    (cs!"drift_detection_method", some cs!"ADWIN(0.001)"),
    (cs!"warning_detection_method", some cs!"ADWIN(0.01)"),
    (cs!"max_byte_size", some cs!"33554432"), (cs!"memory_estimate_period", some cs!"2000000"),
    (cs!"grace_period", some cs!"50"), (cs!"split_criterion", some cs!"'info_gain'"),
    (cs!"split_confidence", some cs!"0.01"), (cs!"tie_threshold", some cs!"0.05"),
    (cs!"binary_split", some cs!"False"), (cs!"stop_mem_management", some cs!"False"),
    (cs!"remove_poor_atts", some cs!"False"), (cs!"no_preprune", some cs!"False"),
    (cs!"leaf_prediction", some cs!"'nba'"), (cs!"nb_threshold", some cs!"0"),
    (cs!"nominal_attributes", some cs!"None"), (cs!"random_state", some cs!"None")]

/-- `AdditiveExpertEnsemble`, meta/additive_expert_ensemble.py 9-19; `AdditiveExpertEnsembleClassifier.__init__`,
meta/additive_expert_ensemble.py 105-106. -/
def additiveExpertEnsemble : Alias where
  name := cs!"AdditiveExpertEnsemble"
  params := [(cs!"n_estimators", some cs!"5"), (cs!"base_estimator", some cs!"NaiveBayes()"),
    (cs!"beta", some cs!"0.8"), (cs!"gamma", some cs!"0.1"),
    (cs!"pruning", some cs!"'weakest'")]
  cls := cs!"AdditiveExpertEnsembleClassifier"
  forward := [(cs!"n_estimators", cs!"n_estimators"), (cs!"base_estimator", cs!"base_estimator"),
    (cs!"beta", cs!"beta"), (cs!"gamma", cs!"gamma"), (cs!"pruning", cs!"pruning")]
  clsParams := [(cs!"n_estimators", some cs!"5"), (cs!"base_estimator", some cs!"NaiveBayes()"),
    (cs!"beta", some cs!"0.8"), (cs!"gamma", some cs!"0.1"),
    (cs!"pruning", some cs!"'weakest'")]

/-- `BatchIncremental`, meta/batch_incremental.py 12-17; `BatchIncrementalClassifier.__init__`,
meta/batch_incremental.py 77. -/
def batchIncremental : Alias where
  name := cs!"BatchIncremental"
  params := [(cs!"nominal_attributes", some cs!"None")]
  cls := cs!"BatchIncrementalClassifier"
  forward := [(cs!"nominal_attributes", cs!"nominal_attributes")]
  clsParams := [(cs!"base_estimator", some cs!"DecisionTreeClassifier()"),
    (cs!"window_size", some cs!"100"), (cs!"n_estimators", some cs!"100")]

/-- `DynamicWeightedMajority`, meta/dynamic_weighted_majority.py 10-20; `DynamicWeightedMajorityClassifier.__init__`,
meta/dynamic_weighted_majority.py 100-101. -/
def dynamicWeightedMajority : Alias where
  name := cs!"DynamicWeightedMajority"
  params := [(cs!"n_estimators", some cs!"5"), (cs!"base_estimator", some cs!"NaiveBayes()"),
    (cs!"period", some cs!"50"), (cs!"beta", some cs!"0.5"), (cs!"theta", some cs!"0.01")]
  cls := cs!"DynamicWeightedMajorityClassifier"
  forward := [(cs!"n_estimators", cs!"n_estimators"), (cs!"base_estimator", cs!"base_estimator"),
    (cs!"period", cs!"period"), (cs!"beta", cs!"beta"), (cs!"theta", cs!"theta")]
  clsParams := [(cs!"n_estimators", some cs!"5"), (cs!"base_estimator", some cs!"NaiveBayes()"),
    (cs!"period", some cs!"50"), (cs!"beta", some cs!"0.5"), (cs!"theta", some cs!"0.01")]

/-- `LearnNSE`, meta/learn_nse.py 10-19; `LearnPPNSEClassifier.__init__`,
meta/learn_nse.py 90-96. -/
def learnNSE : Alias where
  name := cs!"LearnNSE"
  params := [(cs!"base_estimator", some cs!"DecisionTreeClassifier()"),
    (cs!"window_size", some cs!"250"), (cs!"slope", some cs!"0.5"),
    (cs!"crossing_point", some cs!"10"), (cs!"n_estimators", some cs!"15"),
    (cs!"pruning", some cs!"None")]
  cls := cs!"LearnPPNSEClassifier"
  forward := [(cs!"base_estimator", cs!"base_estimator"), (cs!"window_size", cs!"window_size"),
    (cs!"slope", cs!"slope"), (cs!"crossing_point", cs!"crossing_point"),
    (cs!"n_estimators", cs!"n_estimators"), (cs!"pruning", cs!"pruning")]
  clsParams := [(cs!"base_estimator", some cs!"DecisionTreeClassifier()"),
    (cs!"window_size", some cs!"250"), (cs!"slope", some cs!"0.5"),
    (cs!"crossing_point", some cs!"10"), (cs!"n_estimators", some cs!"15"),
    (cs!"pruning", some cs!"None")]

/-- `LearnPP`, meta/learn_pp.py 12-21; `LearnPPClassifier.__init__`,
meta/learn_pp.py 110-115. -/
def learnPP : Alias where
  name := cs!"LearnPP"
  params := [(cs!"base_estimator", some cs!"DecisionTreeClassifier()"),
    (cs!"error_threshold", some cs!"0.5"), (cs!"n_estimators", some cs!"30"),
    (cs!"n_ensembles", some cs!"10"), (cs!"window_size", some cs!"100"),
    (cs!"random_state", some cs!"None")]
  cls := cs!"LearnPPClassifier"
  forward := [(cs!"base_estimator", cs!"base_estimator"), (cs!"error_threshold", cs!"error_threshold"),
    (cs!"n_estimators", cs!"n_estimators"), (cs!"n_ensembles", cs!"n_ensembles"),
    (cs!"window_size", cs!"window_size"), (cs!"random_state", cs!"random_state")]
  clsParams := [(cs!"base_estimator", some cs!"DecisionTreeClassifier()"),
    (cs!"error_threshold", some cs!"0.5"), (cs!"n_estimators", some cs!"30"),
    (cs!"n_ensembles", some cs!"10"), (cs!"window_size", some cs!"100"),
    (cs!"random_state", some cs!"None")]

/-- `LeverageBagging`, meta/leverage_bagging.py 13-24; `LeveragingBaggingClassifier.__init__`,
meta/leverage_bagging.py 139-146. -/
def leverageBagging : Alias where
  name := cs!"LeverageBagging"
  params := [(cs!"base_estimator", some cs!"KNNClassifier()"), (cs!"n_estimators", some cs!"10"),
    (cs!"w", some cs!"6"), (cs!"delta", some cs!"0.002"),
    (cs!"enable_code_matrix", some cs!"False"),
    (cs!"leverage_algorithm", some cs!"'leveraging_bag'"), (cs!"random_state", some cs!"None")]
  cls := cs!"LeveragingBaggingClassifier"
  forward := [(cs!"base_estimator", cs!"base_estimator"), (cs!"n_estimators", cs!"n_estimators"),
    (cs!"w", cs!"w"), (cs!"delta", cs!"delta"),
    (cs!"enable_code_matrix", cs!"enable_code_matrix"),
    (cs!"leverage_algorithm", cs!"leverage_algorithm"), (cs!"random_state", cs!"random_state")]
  clsParams := [(cs!"base_estimator", some cs!"KNNClassifier()"), (cs!"n_estimators", some cs!"10"),
    (cs!"w", some cs!"6"), (cs!"delta", some cs!"0.002"),
    (cs!"enable_code_matrix", some cs!"False"),
    (cs!"leverage_algorithm", some cs!"'leveraging_bag'"), (cs!"random_state", some cs!"None")]

/-- `OnlineAdaC2`, meta/online_adac2.py 13-22; `OnlineAdaC2Classifier.__init__`,
meta/online_adac2.py 113-119. -/
def onlineAdaC2 : Alias where
  name := cs!"OnlineAdaC2"
  params := [(cs!"base_estimator", some cs!"KNNADWINClassifier()"), (cs!"n_estimators", some cs!"10"),
    (cs!"cost_positive", some cs!"1"), (cs!"cost_negative", some cs!"0.1"),
    (cs!"drift_detection", some cs!"True"), (cs!"random_state", some cs!"None")]
  cls := cs!"OnlineAdaC2Classifier"
  forward := [(cs!"base_estimator", cs!"base_estimator"), (cs!"n_estimators", cs!"n_estimators"),
    (cs!"cost_positive", cs!"cost_positive"), (cs!"cost_negative", cs!"cost_negative"),
    (cs!"drift_detection", cs!"drift_detection"), (cs!"random_state", cs!"random_state")]
  clsParams := [(cs!"base_estimator", some cs!"KNNADWINClassifier()"), (cs!"n_estimators", some cs!"10"),
    (cs!"cost_positive", some cs!"1"), (cs!"cost_negative", some cs!"0.1"),
    (cs!"drift_detection", some cs!"True"), (cs!"random_state", some cs!"None")]

/-- `OnlineBoosting`, meta/online_boosting.py 13-20; `OnlineBoostingClassifier.__init__`,
meta/online_boosting.py 113-118. -/
def onlineBoosting : Alias where
  name := cs!"OnlineBoosting"
  params := [(cs!"base_estimator", some cs!"KNNADWINClassifier()"), (cs!"n_estimators", some cs!"10"),
    (cs!"drift_detection", some cs!"True"), (cs!"random_state", some cs!"None")]
  cls := cs!"OnlineBoostingClassifier"
  forward := [(cs!"base_estimator", cs!"base_estimator"), (cs!"n_estimators", cs!"n_estimators"),
    (cs!"drift_detection", cs!"drift_detection"), (cs!"random_state", cs!"random_state")]
  clsParams := [(cs!"base_estimator", some cs!"KNNADWINClassifier()"), (cs!"n_estimators", some cs!"10"),
    (cs!"drift_detection", some cs!"True"), (cs!"random_state", some cs!"None")]

/-- `OnlineCSB2`, meta/online_csb2.py 12-21; `OnlineCSB2Classifier.__init__`,
meta/online_csb2.py 111-117. -/
def onlineCSB2 : Alias where
  name := cs!"OnlineCSB2"
  params := [(cs!"base_estimator", some cs!"KNNADWINClassifier()"), (cs!"n_estimators", some cs!"10"),
    (cs!"cost_positive", some cs!"1"), (cs!"cost_negative", some cs!"0.1"),
    (cs!"drift_detection", some cs!"True"), (cs!"random_state", some cs!"None")]
  cls := cs!"OnlineCSB2Classifier"
  forward := [(cs!"base_estimator", cs!"base_estimator"), (cs!"n_estimators", cs!"n_estimators"),
    (cs!"cost_positive", cs!"cost_positive"), (cs!"cost_negative", cs!"cost_negative"),
    (cs!"drift_detection", cs!"drift_detection"), (cs!"random_state", cs!"random_state")]
  clsParams := [(cs!"base_estimator", some cs!"KNNADWINClassifier()"), (cs!"n_estimators", some cs!"10"),
    (cs!"cost_positive", some cs!"1"), (cs!"cost_negative", some cs!"0.1"),
    (cs!"drift_detection", some cs!"True"), (cs!"random_state", some cs!"None")]

/-- `OnlineRUSBoost`, meta/online_rus_boost.py 12-21; `OnlineRUSBoostClassifier.__init__`,
meta/online_rus_boost.py 113-119. -/
def onlineRUSBoost : Alias where
  name := cs!"OnlineRUSBoost"
  params := [(cs!"base_estimator", some cs!"KNNADWINClassifier()"), (cs!"n_estimators", some cs!"10"),
    (cs!"sampling_rate", some cs!"3"), (cs!"algorithm", some cs!"1"),
    (cs!"drift_detection", some cs!"True"), (cs!"random_state", some cs!"None")]
  cls := cs!"OnlineRUSBoostClassifier"
  forward := [(cs!"base_estimator", cs!"base_estimator"), (cs!"n_estimators", cs!"n_estimators"),
    (cs!"sampling_rate", cs!"sampling_rate"), (cs!"algorithm", cs!"algorithm"),
    (cs!"drift_detection", cs!"drift_detection"), (cs!"random_state", cs!"random_state")]
  clsParams := [(cs!"base_estimator", some cs!"KNNADWINClassifier()"), (cs!"n_estimators", some cs!"10"),
    (cs!"sampling_rate", some cs!"3"), (cs!"algorithm", some cs!"1"),
    (cs!"drift_detection", some cs!"True"), (cs!"random_state", some cs!"None")]

/-- `OnlineSMOTEBagging`, meta/online_smote_bagging.py 13-21; `OnlineSMOTEBaggingClassifier.__init__`,
meta/online_smote_bagging.py 108-114. -/
def onlineSMOTEBagging : Alias where
  name := cs!"OnlineSMOTEBagging"
  params := [(cs!"base_estimator", some cs!"KNNADWINClassifier()"), (cs!"n_estimators", some cs!"10"),
    (cs!"sampling_rate", some cs!"1"), (cs!"drift_detection", some cs!"True"),
    (cs!"random_state", some cs!"None")]
  cls := cs!"OnlineSMOTEBaggingClassifier"
  forward := [(cs!"base_estimator", cs!"base_estimator"), (cs!"n_estimators", cs!"n_estimators"),
    (cs!"sampling_rate", cs!"sampling_rate"), (cs!"drift_detection", cs!"drift_detection"),
    (cs!"random_state", cs!"random_state")]
  clsParams := [(cs!"base_estimator", some cs!"KNNADWINClassifier()"), (cs!"n_estimators", some cs!"10"),
    (cs!"sampling_rate", some cs!"1"), (cs!"drift_detection", some cs!"True"),
    (cs!"random_state", some cs!"None")]

/-- `OnlineUnderOverBagging`, meta/online_under_over_bagging.py 13-21; `OnlineUnderOverBaggingClassifier.__init__`,
meta/online_under_over_bagging.py 112-118. -/
def onlineUnderOverBagging : Alias where
  name := cs!"OnlineUnderOverBagging"
  params := [(cs!"base_estimator", some cs!"KNNADWINClassifier()"), (cs!"n_estimators", some cs!"10"),
    (cs!"sampling_rate", some cs!"2"), (cs!"drift_detection", some cs!"True"),
    (cs!"random_state", some cs!"None")]
  cls := cs!"OnlineUnderOverBaggingClassifier"
  forward := [(cs!"base_estimator", cs!"base_estimator"), (cs!"n_estimators", cs!"n_estimators"),
    (cs!"sampling_rate", cs!"sampling_rate"), (cs!"drift_detection", cs!"drift_detection"),
    (cs!"random_state", cs!"random_state")]
  clsParams := [(cs!"base_estimator", some cs!"KNNADWINClassifier()"), (cs!"n_estimators", some cs!"10"),
    (cs!"sampling_rate", some cs!"2"), (cs!"drift_detection", some cs!"True"),
    (cs!"random_state", some cs!"None")]

/-- `OzaBagging`, meta/oza_bagging.py 11-17; `OzaBaggingClassifier.__init__`,
meta/oza_bagging.py 101. -/
def ozaBagging : Alias where
  name := cs!"OzaBagging"
  params := [(cs!"base_estimator", some cs!"KNNADWINClassifier()"), (cs!"n_estimators", some cs!"10"),
    (cs!"random_state", some cs!"None")]
  cls := cs!"OzaBaggingClassifier"
  forward := [(cs!"base_estimator", cs!"base_estimator"), (cs!"n_estimators", cs!"n_estimators"),
    (cs!"random_state", cs!"random_state")]
  clsParams := [(cs!"base_estimator", some cs!"KNNADWINClassifier()"), (cs!"n_estimators", some cs!"10"),
    (cs!"random_state", some cs!"None")]

/-- `OzaBaggingAdwin`, meta/oza_bagging_adwin.py 12-18; `OzaBaggingADWINClassifier.__init__`,
meta/oza_bagging_adwin.py 93. -/
def ozaBaggingAdwin : Alias where
  name := cs!"OzaBaggingAdwin"
  params := [(cs!"base_estimator", some cs!"KNNADWINClassifier()"), (cs!"n_estimators", some cs!"10"),
    (cs!"random_state", some cs!"None")]
  cls := cs!"OzaBaggingADWINClassifier"
  forward := [(cs!"base_estimator", cs!"base_estimator"), (cs!"n_estimators", cs!"n_estimators"),
    (cs!"random_state", cs!"random_state")]
  clsParams := [(cs!"base_estimator", some cs!"KNNADWINClassifier()"), (cs!"n_estimators", some cs!"10"),
    (cs!"random_state", some cs!"None")]

/-- `VFDR`, rules/very_fast_decision_rules.py 32-49; `VeryFastDecisionRulesClassifier.__init__`,
rules/very_fast_decision_rules.py 938-951. -/
def vfdr : Alias where
  name := cs!"VFDR"
  params := [(cs!"expand_confidence", some cs!"1e-07"), (cs!"ordered_rules", some cs!"True"),
    (cs!"grace_period", some cs!"200"), (cs!"tie_threshold", some cs!"0.05"),
    (cs!"rule_prediction", some cs!"'first_hit'"), (cs!"nominal_attributes", some cs!"None"),
    (cs!"max_rules", some cs!"1000"), (cs!"nb_threshold", some cs!"0"),
    (cs!"nb_prediction", some cs!"True"), (cs!"drift_detector", some cs!"None"),
    (cs!"expand_criterion", some cs!"'info_gain'"), (cs!"remove_poor_atts", some cs!"False"),
    (cs!"min_weight", some cs!"100")]
  cls := cs!"VeryFastDecisionRulesClassifier"
  forward := [(cs!"expand_confidence", cs!"expand_confidence"), (cs!"ordered_rules", cs!"ordered_rules"),
    (cs!"grace_period", cs!"grace_period"), (cs!"tie_threshold", cs!"tie_threshold"),
    (cs!"rule_prediction", cs!"rule_prediction"),
    (cs!"nominal_attributes", cs!"nominal_attributes"), (cs!"max_rules", cs!"max_rules"),
    (cs!"nb_threshold", cs!"nb_threshold"), (cs!"nb_prediction", cs!"nb_prediction"),
    (cs!"drift_detector", cs!"drift_detector"), (cs!"expand_criterion", cs!"expand_criterion"),
    (cs!"remove_poor_atts", cs!"remove_poor_atts"), (cs!"min_weight", cs!"min_weight")]
  clsParams := [(cs!"expand_confidence", some cs!"1e-07"), (cs!"ordered_rules", some cs!"True"),
    (cs!"grace_period", some cs!"200"), (cs!"tie_threshold", some cs!"0.05"),
    (cs!"rule_prediction", some cs!"'first_hit'"), (cs!"nominal_attributes", some cs!"None"),
    (cs!"max_rules", some cs!"1000"), (cs!"nb_threshold", some cs!"0"),
    (cs!"nb_prediction", some cs!"True"), (cs!"drift_detector", some cs!"None"),
    (cs!"expand_criterion", some cs!"'info_gain'"), (cs!"remove_poor_atts", some cs!"False"),
    (cs!"min_weight", some cs!"100")]

/-- `HATT`, trees/extremely_fast_decision_tree.py 20-37; `ExtremelyFastDecisionTreeClassifier.__init__`,
trees/extremely_fast_decision_tree.py 148-160. -/
def hatt : Alias where
  name := cs!"HATT"
  params := [(cs!"max_byte_size", some cs!"33554432"), (cs!"memory_estimate_period", some cs!"1000000"),
    (cs!"grace_period", some cs!"200"), (cs!"min_samples_reevaluate", some cs!"20"),
    (cs!"split_criterion", some cs!"'info_gain'"), (cs!"split_confidence", some cs!"1e-07"),
    (cs!"tie_threshold", some cs!"0.05"), (cs!"binary_split", some cs!"False"),
    (cs!"stop_mem_management", some cs!"False"), (cs!"leaf_prediction", some cs!"'nba'"),
    (cs!"nb_threshold", some cs!"0"), (cs!"nominal_attributes", some cs!"None")]
  cls := cs!"ExtremelyFastDecisionTreeClassifier"
  forward := [(cs!"max_byte_size", cs!"max_byte_size"),
    (cs!"memory_estimate_period", cs!"memory_estimate_period"),
    (cs!"grace_period", cs!"grace_period"),
    (cs!"min_samples_reevaluate", cs!"min_samples_reevaluate"),
    (cs!"split_criterion", cs!"split_criterion"),
    (cs!"split_confidence", cs!"split_confidence"), (cs!"tie_threshold", cs!"tie_threshold"),
    (cs!"binary_split", cs!"binary_split"),
    (cs!"stop_mem_management", cs!"stop_mem_management"),
    (cs!"leaf_prediction", cs!"leaf_prediction"), (cs!"nb_threshold", cs!"nb_threshold"),
    (cs!"nominal_attributes", cs!"nominal_attributes")]
  clsParams := [(cs!"max_byte_size", some cs!"33554432"), (cs!"memory_estimate_period", some cs!"1000000"),
    (cs!"grace_period", some cs!"200"), (cs!"min_samples_reevaluate", some cs!"20"),
    (cs!"split_criterion", some cs!"'info_gain'"), (cs!"split_confidence", some cs!"1e-07"),
    (cs!"tie_threshold", some cs!"0.05"), (cs!"binary_split", some cs!"False"),
    (cs!"stop_mem_management", some cs!"False"), (cs!"leaf_prediction", some cs!"'nba'"),
    (cs!"nb_threshold", some cs!"0"), (cs!"nominal_attributes", some cs!"None")]

/-- `HAT`, trees/hoeffding_adaptive_tree.py 14-35; `HoeffdingAdaptiveTreeClassifier.__init__`,
trees/hoeffding_adaptive_tree.py 137-152. -/
def hat : Alias where
  name := cs!"HAT"
  params := [(cs!"max_byte_size", some cs!"33554432"), (cs!"memory_estimate_period", some cs!"1000000"),
    (cs!"grace_period", some cs!"200"), (cs!"split_criterion", some cs!"'info_gain'"),
    (cs!"split_confidence", some cs!"1e-07"), (cs!"tie_threshold", some cs!"0.05"),
    (cs!"binary_split", some cs!"False"), (cs!"stop_mem_management", some cs!"False"),
    (cs!"remove_poor_atts", some cs!"False"), (cs!"no_preprune", some cs!"False"),
    (cs!"leaf_prediction", some cs!"'nba'"), (cs!"nb_threshold", some cs!"0"),
    (cs!"nominal_attributes", some cs!"None"), (cs!"bootstrap_sampling", some cs!"True"),
    (cs!"random_state", some cs!"None")]
  cls := cs!"HoeffdingAdaptiveTreeClassifier"
  forward := [(cs!"max_byte_size", cs!"max_byte_size"),
    (cs!"memory_estimate_period", cs!"memory_estimate_period"),
    (cs!"grace_period", cs!"grace_period"), (cs!"split_criterion", cs!"split_criterion"),
    (cs!"split_confidence", cs!"split_confidence"), (cs!"tie_threshold", cs!"tie_threshold"),
    (cs!"binary_split", cs!"binary_split"),
    (cs!"stop_mem_management", cs!"stop_mem_management"),
    (cs!"remove_poor_atts", cs!"remove_poor_atts"), (cs!"no_preprune", cs!"no_preprune"),
    (cs!"leaf_prediction", cs!"leaf_prediction"), (cs!"nb_threshold", cs!"nb_threshold"),
    (cs!"nominal_attributes", cs!"nominal_attributes"),
    (cs!"bootstrap_sampling", cs!"bootstrap_sampling"), (cs!"random_state", cs!"random_state")]
  clsParams := [(cs!"max_byte_size", some cs!"33554432"), (cs!"memory_estimate_period", some cs!"1000000"),
    (cs!"grace_period", some cs!"200"), (cs!"split_criterion", some cs!"'info_gain'"),
    (cs!"split_confidence", some cs!"1e-07"), (cs!"tie_threshold", some cs!"0.05"),
    (cs!"binary_split", some cs!"False"), (cs!"stop_mem_management", some cs!"False"),
    (cs!"remove_poor_atts", some cs!"False"), (cs!"no_preprune", some cs!"False"),
    (cs!"leaf_prediction", some cs!"'nba'"), (cs!"nb_threshold", some cs!"0"),
    (cs!"nominal_attributes", some cs!"None"), (cs!"bootstrap_sampling", some cs!"True"),
    (cs!"random_state", some cs!"None")]

/-- `RegressionHAT`, trees/hoeffding_adaptive_tree_regressor.py 14-37; `HoeffdingAdaptiveTreeRegressor.__init__`,
trees/hoeffding_adaptive_tree_regressor.py 124-140. -/
def regressionHAT : Alias where
  name := cs!"RegressionHAT"
  params := [(cs!"max_byte_size", some cs!"33554432"), (cs!"memory_estimate_period", some cs!"1000000"),
    (cs!"grace_period", some cs!"200"), (cs!"split_confidence", some cs!"1e-07"),
    (cs!"tie_threshold", some cs!"0.05"), (cs!"binary_split", some cs!"False"),
    (cs!"stop_mem_management", some cs!"False"), (cs!"remove_poor_atts", some cs!"False"),
    (cs!"leaf_prediction", some cs!"'perceptron'"), (cs!"no_preprune", some cs!"False"),
    (cs!"nominal_attributes", some cs!"None"), (cs!"learning_ratio_perceptron", some cs!"0.02"),
    (cs!"learning_ratio_decay", some cs!"0.001"), (cs!"learning_ratio_const", some cs!"True"),
    (cs!"bootstrap_sampling", some cs!"False"), (cs!"random_state", some cs!"None")]
  cls := cs!"HoeffdingAdaptiveTreeRegressor"
  forward := [(cs!"max_byte_size", cs!"max_byte_size"),
    (cs!"memory_estimate_period", cs!"memory_estimate_period"),
    (cs!"grace_period", cs!"grace_period"), (cs!"split_confidence", cs!"split_confidence"),
    (cs!"tie_threshold", cs!"tie_threshold"), (cs!"binary_split", cs!"binary_split"),
    (cs!"stop_mem_management", cs!"stop_mem_management"),
    (cs!"remove_poor_atts", cs!"remove_poor_atts"),
    (cs!"leaf_prediction", cs!"leaf_prediction"), (cs!"no_preprune", cs!"no_preprune"),
    (cs!"nominal_attributes", cs!"nominal_attributes"),
    (cs!"learning_ratio_perceptron", cs!"learning_ratio_perceptron"),
    (cs!"learning_ratio_decay", cs!"learning_ratio_decay"),
    (cs!"learning_ratio_const", cs!"learning_ratio_const"),
    (cs!"bootstrap_sampling", cs!"bootstrap_sampling"), (cs!"random_state", cs!"random_state")]
  clsParams := [(cs!"max_byte_size", some cs!"33554432"), (cs!"memory_estimate_period", some cs!"1000000"),
    (cs!"grace_period", some cs!"200"), (cs!"split_confidence", some cs!"1e-07"),
    (cs!"tie_threshold", some cs!"0.05"), (cs!"binary_split", some cs!"False"),
    (cs!"stop_mem_management", some cs!"False"), (cs!"remove_poor_atts", some cs!"False"),
    (cs!"leaf_prediction", some cs!"'perceptron'"), (cs!"no_preprune", some cs!"False"),
    (cs!"nominal_attributes", some cs!"None"), (cs!"learning_ratio_perceptron", some cs!"0.02"),
    (cs!"learning_ratio_decay", some cs!"0.001"), (cs!"learning_ratio_const", some cs!"True"),
    (cs!"bootstrap_sampling", some cs!"False"), (cs!"random_state", some cs!"None")]

/-- `HoeffdingTree`, trees/hoeffding_tree.py 27-46; `HoeffdingTreeClassifier.__init__`,
trees/hoeffding_tree.py 153-166. -/
def hoeffdingTree : Alias where
  name := cs!"HoeffdingTree"
  params := [(cs!"max_byte_size", some cs!"33554432"), (cs!"memory_estimate_period", some cs!"1000000"),
    (cs!"grace_period", some cs!"200"), (cs!"split_criterion", some cs!"'info_gain'"),
    (cs!"split_confidence", some cs!"1e-07"), (cs!"tie_threshold", some cs!"0.05"),
    (cs!"binary_split", some cs!"False"), (cs!"stop_mem_management", some cs!"False"),
    (cs!"remove_poor_atts", some cs!"False"), (cs!"no_preprune", some cs!"False"),
    (cs!"leaf_prediction", some cs!"'nba'"), (cs!"nb_threshold", some cs!"0"),
    (cs!"nominal_attributes", some cs!"None")]
  cls := cs!"HoeffdingTreeClassifier"
  forward := [(cs!"max_byte_size", cs!"max_byte_size"),
    (cs!"memory_estimate_period", cs!"memory_estimate_period"),
    (cs!"grace_period", cs!"grace_period"), (cs!"split_criterion", cs!"split_criterion"),
    (cs!"split_confidence", cs!"split_confidence"), (cs!"tie_threshold", cs!"tie_threshold"),
    (cs!"binary_split", cs!"binary_split"),
    (cs!"stop_mem_management", cs!"stop_mem_management"),
    (cs!"remove_poor_atts", cs!"remove_poor_atts"), (cs!"no_preprune", cs!"no_preprune"),
    (cs!"leaf_prediction", cs!"leaf_prediction"), (cs!"nb_threshold", cs!"nb_threshold"),
    (cs!"nominal_attributes", cs!"nominal_attributes")]
  clsParams := [(cs!"max_byte_size", some cs!"33554432"), (cs!"memory_estimate_period", some cs!"1000000"),
    (cs!"grace_period", some cs!"200"), (cs!"split_criterion", some cs!"'info_gain'"),
    (cs!"split_confidence", some cs!"1e-07"), (cs!"tie_threshold", some cs!"0.05"),
    (cs!"binary_split", some cs!"False"), (cs!"stop_mem_management", some cs!"False"),
    (cs!"remove_poor_atts", some cs!"False"), (cs!"no_preprune", some cs!"False"),
    (cs!"leaf_prediction", some cs!"'nba'"), (cs!"nb_threshold", some cs!"0"),
    (cs!"nominal_attributes", some cs!"None")]

/-- `RegressionHoeffdingTree`, trees/hoeffding_tree_regressor.py 22-46; `HoeffdingTreeRegressor.__init__`,
trees/hoeffding_tree_regressor.py 141-157. -/
def regressionHoeffdingTree : Alias where
  name := cs!"RegressionHoeffdingTree"
  params := [(cs!"max_byte_size", some cs!"33554432"), (cs!"memory_estimate_period", some cs!"1000000"),
    (cs!"grace_period", some cs!"200"), (cs!"split_confidence", some cs!"1e-07"),
    (cs!"tie_threshold", some cs!"0.05"), (cs!"binary_split", some cs!"False"),
    (cs!"stop_mem_management", some cs!"False"), (cs!"remove_poor_atts", some cs!"False"),
    (cs!"leaf_prediction", some cs!"'perceptron'"), (cs!"no_preprune", some cs!"False"),
    (cs!"nb_threshold", some cs!"0"), (cs!"nominal_attributes", some cs!"None"),
    (cs!"learning_ratio_perceptron", some cs!"0.02"),
    (cs!"learning_ratio_decay", some cs!"0.001"), (cs!"learning_ratio_const", some cs!"True"),
    (cs!"random_state", some cs!"None")]
  cls := cs!"HoeffdingTreeRegressor"
  forward := [(cs!"max_byte_size", cs!"max_byte_size"),
    (cs!"memory_estimate_period", cs!"memory_estimate_period"),
    (cs!"grace_period", cs!"grace_period"), (cs!"split_confidence", cs!"split_confidence"),
    (cs!"tie_threshold", cs!"tie_threshold"), (cs!"binary_split", cs!"binary_split"),
    (cs!"stop_mem_management", cs!"stop_mem_management"),
    (cs!"remove_poor_atts", cs!"remove_poor_atts"),
    (cs!"leaf_prediction", cs!"leaf_prediction"), (cs!"no_preprune", cs!"no_preprune"),
    (cs!"nb_threshold", cs!"nb_threshold"), (cs!"nominal_attributes", cs!"nominal_attributes"),
    (cs!"learning_ratio_perceptron", cs!"learning_ratio_perceptron"),
    (cs!"learning_ratio_decay", cs!"learning_ratio_decay"),
    (cs!"learning_ratio_const", cs!"learning_ratio_const"),
    (cs!"random_state", cs!"random_state")]
  clsParams := [(cs!"max_byte_size", some cs!"33554432"), (cs!"memory_estimate_period", some cs!"1000000"),
    (cs!"grace_period", some cs!"200"), (cs!"split_confidence", some cs!"1e-07"),
    (cs!"tie_threshold", some cs!"0.05"), (cs!"binary_split", some cs!"False"),
    (cs!"stop_mem_management", some cs!"False"), (cs!"remove_poor_atts", some cs!"False"),
    (cs!"leaf_prediction", some cs!"'perceptron'"), (cs!"no_preprune", some cs!"False"),
    (cs!"nb_threshold", some cs!"0"), (cs!"nominal_attributes", some cs!"None"),
    (cs!"learning_ratio_perceptron", some cs!"0.02"),
    (cs!"learning_ratio_decay", some cs!"0.001"), (cs!"learning_ratio_const", some cs!"True"),
    (cs!"random_state", some cs!"None")]

/-- `MultiTargetRegressionHoeffdingTree`, trees/isoup_tree.py 24-50; `iSOUPTreeRegressor.__init__`,
trees/isoup_tree.py 146-162. -/
def multiTargetRegressionHoeffdingTree : Alias where
  name := cs!"MultiTargetRegressionHoeffdingTree"
  params := [(cs!"max_byte_size", some cs!"33554432"), (cs!"memory_estimate_period", some cs!"1000000"),
    (cs!"grace_period", some cs!"200"), (cs!"split_confidence", some cs!"1e-07"),
    (cs!"tie_threshold", some cs!"0.05"), (cs!"binary_split", some cs!"False"),
    (cs!"stop_mem_management", some cs!"False"), (cs!"remove_poor_atts", some cs!"False"),
    (cs!"leaf_prediction", some cs!"'perceptron'"), (cs!"no_preprune", some cs!"False"),
    (cs!"nb_threshold", some cs!"0"), (cs!"nominal_attributes", some cs!"None"),
    (cs!"learning_ratio_perceptron", some cs!"0.02"),
    (cs!"learning_ratio_decay", some cs!"0.001"), (cs!"learning_ratio_const", some cs!"True"),
    (cs!"random_state", some cs!"None")]
  cls := cs!"iSOUPTreeRegressor"
  forward := [(cs!"max_byte_size", cs!"max_byte_size"),
    (cs!"memory_estimate_period", cs!"memory_estimate_period"),
    (cs!"grace_period", cs!"grace_period"), (cs!"split_confidence", cs!"split_confidence"),
    (cs!"tie_threshold", cs!"tie_threshold"), (cs!"binary_split", cs!"binary_split"),
    (cs!"stop_mem_management", cs!"stop_mem_management"),
    (cs!"remove_poor_atts", cs!"remove_poor_atts"),
    (cs!"leaf_prediction", cs!"leaf_prediction"), (cs!"no_preprune", cs!"no_preprune"),
    (cs!"nb_threshold", cs!"nb_threshold"), (cs!"nominal_attributes", cs!"nominal_attributes"),
    (cs!"learning_ratio_perceptron", cs!"learning_ratio_perceptron"),
    (cs!"learning_ratio_decay", cs!"learning_ratio_decay"),
    (cs!"learning_ratio_const", cs!"learning_ratio_const"),
    (cs!"random_state", cs!"random_state")]
  clsParams := [(cs!"max_byte_size", some cs!"33554432"), (cs!"memory_estimate_period", some cs!"1000000"),
    (cs!"grace_period", some cs!"200"), (cs!"split_confidence", some cs!"1e-07"),
    (cs!"tie_threshold", some cs!"0.05"), (cs!"binary_split", some cs!"False"),
    (cs!"stop_mem_management", some cs!"False"), (cs!"remove_poor_atts", some cs!"False"),
    (cs!"leaf_prediction", some cs!"'perceptron'"), (cs!"no_preprune", some cs!"False"),
    (cs!"nb_threshold", some cs!"0"), (cs!"nominal_attributes", some cs!"None"),
    (cs!"learning_ratio_perceptron", some cs!"0.02"),
    (cs!"learning_ratio_decay", some cs!"0.001"), (cs!"learning_ratio_const", some cs!"True"),
    (cs!"random_state", some cs!"None")]

/-- `LCHT`, trees/label_combination_hoeffding_tree.py 14-34; `LabelCombinationHoeffdingTreeClassifier.__init__`,
trees/label_combination_hoeffding_tree.py 121-135. -/
def lcht : Alias where
  name := cs!"LCHT"
  params := [(cs!"max_byte_size", some cs!"33554432"), (cs!"memory_estimate_period", some cs!"1000000"),
    (cs!"grace_period", some cs!"200"), (cs!"split_criterion", some cs!"'info_gain'"),
    (cs!"split_confidence", some cs!"1e-07"), (cs!"tie_threshold", some cs!"0.05"),
    (cs!"binary_split", some cs!"False"), (cs!"stop_mem_management", some cs!"False"),
    (cs!"remove_poor_atts", some cs!"False"), (cs!"no_preprune", some cs!"False"),
    (cs!"leaf_prediction", some cs!"'nba'"), (cs!"nb_threshold", some cs!"0"),
    (cs!"nominal_attributes", some cs!"None"), (cs!"n_labels", some cs!"None")]
  cls := cs!"LabelCombinationHoeffdingTreeClassifier"
  forward := [(cs!"max_byte_size", cs!"max_byte_size"),
    (cs!"memory_estimate_period", cs!"memory_estimate_period"),
    (cs!"grace_period", cs!"grace_period"), (cs!"split_criterion", cs!"split_criterion"),
    (cs!"split_confidence", cs!"split_confidence"), (cs!"tie_threshold", cs!"tie_threshold"),
    (cs!"binary_split", cs!"binary_split"),
    (cs!"stop_mem_management", cs!"stop_mem_management"),
    (cs!"remove_poor_atts", cs!"remove_poor_atts"), (cs!"no_preprune", cs!"no_preprune"),
    (cs!"leaf_prediction", cs!"leaf_prediction"), (cs!"nb_threshold", cs!"nb_threshold"),
    (cs!"nominal_attributes", cs!"nominal_attributes"), (cs!"n_labels", cs!"n_labels")]
  clsParams := [(cs!"max_byte_size", some cs!"33554432"), (cs!"memory_estimate_period", some cs!"1000000"),
    (cs!"grace_period", some cs!"200"), (cs!"split_criterion", some cs!"'info_gain'"),
    (cs!"split_confidence", some cs!"1e-07"), (cs!"tie_threshold", some cs!"0.05"),
    (cs!"binary_split", some cs!"False"), (cs!"stop_mem_management", some cs!"False"),
    (cs!"remove_poor_atts", some cs!"False"), (cs!"no_preprune", some cs!"False"),
    (cs!"leaf_prediction", some cs!"'nba'"), (cs!"nb_threshold", some cs!"0"),
    (cs!"nominal_attributes", some cs!"None"), (cs!"n_labels", some cs!"None")]

/-- `InstanceWindow`, utils/data_structures.py 870-875; `SlidingWindow.__init__`,
utils/data_structures.py 905. -/
def instanceWindow : Alias where
  name := cs!"InstanceWindow"
  params := [(cs!"self", none), (cs!"n_features", some cs!"0"), (cs!"n_targets", some cs!"1"),
    (cs!"categorical_list", some cs!"None"), (cs!"max_size", some cs!"1000"),
    (cs!"dtype", some cs!"float")]
  cls := cs!"SlidingWindow"
  forward := [(cs!"window_size", cs!"max_size")]
  clsParams := [(cs!"window_size", some cs!"1000")]

/-- All functions of the package that stand for a renamed class. -/
def table : List Alias :=
  [knnAdwin, knn, samknn, accuracyWeightedEnsemble, adaptiveRandomForest,
   additiveExpertEnsemble, batchIncremental, dynamicWeightedMajority, learnNSE, learnPP,
   leverageBagging, onlineAdaC2, onlineBoosting, onlineCSB2, onlineRUSBoost, onlineSMOTEBagging,
   onlineUnderOverBagging, ozaBagging, ozaBaggingAdwin, vfdr, hatt, hat, regressionHAT,
   hoeffdingTree, regressionHoeffdingTree, multiTargetRegressionHoeffdingTree, lcht,
   instanceWindow]

/-! ## Binding -/

section
variable {V : Type}

theorem fill_keys (kw : List (Txt × Arg V)) (ps : List (Txt × Option Txt)) (pos : List (Arg V))
    (env : List (Txt × Arg V)) (h : fill kw ps pos = .ok env) : env.map (·.1) = ps.map (·.1) := by
  induction ps generalizing pos env with
  | nil => simp only [fill] at h; cases h; rfl
  | cons q ps ih =>
    obtain ⟨p, d⟩ := q
    cases pos with
    | cons v pos =>
      simp only [fill] at h
      split at h
      · cases h
      · cases hf : fill kw ps pos with
        | error e => rw [hf] at h; cases h
        | ok e => rw [hf] at h; cases h; simp [ih pos e hf]
    | nil =>
      simp only [fill] at h
      cases hl : kw.lookup p with
      | some v =>
        rw [hl] at h
        cases hf : fill kw ps [] with
        | error e => rw [hf] at h; cases h
        | ok e => rw [hf] at h; cases h; simp [ih [] e hf]
      | none =>
        rw [hl] at h
        cases d with
        | none => cases h
        | some dd =>
          cases hf : fill kw ps [] with
          | error e => simp only [hf] at h; cases h
          | ok e => simp only [hf] at h; cases h; simp [ih [] e hf]

theorem fill_error (kw : List (Txt × Arg V)) (ps : List (Txt × Option Txt)) (pos : List (Arg V))
    (e : PyErr) (h : fill kw ps pos = .error e) : e = .typeError := by
  induction ps generalizing pos with
  | nil => simp only [fill] at h; cases h
  | cons q ps ih =>
    obtain ⟨p, d⟩ := q
    cases pos with
    | cons v pos =>
      simp only [fill] at h
      split at h
      · cases h; rfl
      · cases hf : fill kw ps pos with
        | error e' => rw [hf] at h; cases h; exact ih pos hf
        | ok e' => rw [hf] at h; cases h
    | nil =>
      simp only [fill] at h
      cases hl : kw.lookup p with
      | some v =>
        rw [hl] at h
        cases hf : fill kw ps [] with
        | error e' => rw [hf] at h; cases h; exact ih [] hf
        | ok e' => rw [hf] at h; cases h
      | none =>
        rw [hl] at h
        cases d with
        | none => cases h; rfl
        | some dd =>
          cases hf : fill kw ps [] with
          | error e' => simp only [hf] at h; cases h; exact ih [] hf
          | ok e' => simp only [hf] at h; cases h

theorem bind_error (ps : List (Txt × Option Txt)) (pos : List (Arg V)) (kw : List (Txt × Arg V))
    (e : PyErr) (h : bind ps pos kw = .error e) : e = .typeError := by
  simp only [bind] at h
  split at h
  · cases h; rfl
  · split at h
    · cases h; rfl
    · split at h
      · cases h; rfl
      · exact fill_error _ _ _ _ h

/-- The bindings of parameters nobody mentions. -/
def defaults (ps : List (Txt × Option Txt)) : List (Txt × Arg V) :=
  ps.map fun p => (p.1, .dflt (p.2.getD []))

theorem fill_defaults (kw : List (Txt × Arg V)) (ps : List (Txt × Option Txt))
    (hd : ∀ p ∈ ps, p.2.isSome) (hk : ∀ p ∈ ps, p.1 ∉ kw.map (·.1)) :
    fill kw ps [] = .ok (defaults ps) := by
  induction ps with
  | nil => rfl
  | cons q ps ih =>
    obtain ⟨p, d⟩ := q
    have h1 : kw.lookup p = none := by
      rw [List.lookup_eq_none_iff]
      intro x hx
      have := hk (p, d) (by simp)
      simp only [beq_eq_false_iff_ne, ne_eq, bne_iff_ne]
      intro e
      exact this (List.mem_map.2 ⟨x, hx, e.symm⟩)
    have h2 := hd (p, d) (by simp)
    cases d with
    | none => cases h2
    | some e =>
      simp only [fill, h1]
      rw [ih (fun x hx => hd x (by simp [hx])) (fun x hx => hk x (by simp [hx]))]
      rfl

theorem fill_append (kw : List (Txt × Arg V)) (ps ex : List (Txt × Option Txt)) (pos : List (Arg V))
    (hl : pos.length ≤ ps.length) (hd : ∀ p ∈ ex, p.2.isSome) (hk : ∀ p ∈ ex, p.1 ∉ kw.map (·.1)) :
    fill kw (ps ++ ex) pos = (fill kw ps pos).map (· ++ defaults ex) := by
  induction ps generalizing pos with
  | nil =>
    have : pos = [] := by simpa using hl
    subst this
    rw [List.nil_append, fill_defaults kw ex hd hk]
    rfl
  | cons q ps ih =>
    obtain ⟨p, d⟩ := q
    cases pos with
    | cons v pos =>
      have := ih pos (by simpa using hl)
      simp only [List.cons_append, fill, this]
      split
      · rfl
      · cases fill kw ps pos <;> rfl
    | nil =>
      have := ih [] (by simp)
      simp only [List.cons_append, fill, this]
      cases kw.lookup p with
      | some v => cases fill kw ps [] <;> rfl
      | none =>
        cases d with
        | none => rfl
        | some e => cases fill kw ps [] <;> rfl

theorem fill_self (kw env : List (Txt × Arg V)) (ps : List (Txt × Option Txt))
    (he : env.map (·.1) = ps.map (·.1)) (hk : ∀ x ∈ env, kw.lookup x.1 = some x.2) :
    fill kw ps [] = .ok env := by
  induction ps generalizing env with
  | nil =>
    have : env = [] := by simpa using he
    subst this; rfl
  | cons q ps ih =>
    obtain ⟨p, d⟩ := q
    cases env with
    | nil => simp at he
    | cons x env =>
      simp only [List.map_cons, List.cons.injEq] at he
      have h1 := hk x (by simp)
      rw [he.1] at h1
      simp only [fill, h1]
      rw [ih env he.2 (fun y hy => hk y (by simp [hy]))]
      rw [← he.1]; rfl

theorem lookup_self (env : List (Txt × Arg V)) (h : (env.map (·.1)).Nodup) :
    ∀ x ∈ env, env.lookup x.1 = some x.2 := by
  induction env with
  | nil => simp
  | cons y env ih =>
    obtain ⟨yk, yv⟩ := y
    simp only [List.map_cons, List.nodup_cons] at h
    intro x hx
    rcases List.mem_cons.1 hx with rfl | hx
    · simp [List.lookup_cons]
    · have hne : x.1 ≠ yk := by
        intro e
        exact h.1 (List.mem_map.2 ⟨x, hx, e⟩)
      have : (x.1 == yk) = false := by simpa using hne
      rw [List.lookup_cons, this]
      exact ih h.2 x hx

theorem mem_of_lookup {env : List (Txt × Arg V)} {k : Txt} {v : Arg V} (h : env.lookup k = some v) : (k, v) ∈ env := by
  induction env with
  | nil => simp at h
  | cons y env ih =>
    obtain ⟨yk, yv⟩ := y
    rw [List.lookup_cons] at h
    by_cases e : k = yk
    · subst e
      simp only [beq_self_eq_true, Option.some.injEq] at h
      rw [h]; simp
    · have : (k == yk) = false := by simpa using e
      rw [this] at h
      exact List.mem_cons_of_mem _ (ih h)

theorem mapM_locals (kw env : List (Txt × Arg V)) (h : ∀ x ∈ env, kw.lookup x.1 = some x.2) :
    (env.map fun x => (x.1, x.1)).mapM (localVal kw) = .ok env := by
  induction env with
  | nil => rfl
  | cons x env ih =>
    have h1 := h x (by simp)
    rw [List.map_cons, List.mapM_cons]
    simp only [localVal, h1]
    rw [ih fun y hy => h y (by simp [hy])]
    rfl

end

/-! ## What is claimed -/

/-- The function passes every parameter on under its own name, and its signature is that of the
class, up to trailing parameters of the class that have defaults. -/
def Alias.Faithful (a : Alias) : Prop :=
  a.clsParams.take a.params.length = a.params ∧ a.forward = a.params.map (fun p => (p.1, p.1)) ∧
    (a.clsParams.map (·.1)).Nodup ∧ ∀ p ∈ a.clsParams.drop a.params.length, p.2.isSome

instance (a : Alias) : Decidable a.Faithful := by unfold Alias.Faithful; infer_instance

theorem call_faithful {V : Type} (a : Alias) (h : a.Faithful) (pos : List V) (kw : List (Txt × V))
    (r : Txt × List (Txt × Arg V)) (hr : a.call pos kw = .ok r) : construct a pos kw = .ok r := by
  obtain ⟨hp, hf, hn, hd⟩ := h
  have hsplit : a.clsParams = a.params ++ a.clsParams.drop a.params.length := by
    conv_lhs => rw [← List.take_append_drop a.params.length a.clsParams, hp]
  generalize a.clsParams.drop a.params.length = ex at hsplit hd
  simp only [Alias.call] at hr
  cases hb : bind a.params (user pos kw).1 (user pos kw).2 with
  | error e => rw [hb] at hr; cases hr
  | ok env =>
    rw [hb] at hr
    simp only [bind] at hb
    split at hb
    · cases hb
    · rename_i hl
      split at hb
      · cases hb
      · rename_i hk
        split at hb
        · cases hb
        · rename_i hkn
          push_neg at hk hkn hl
          have hkeys := fill_keys _ _ _ _ hb
          rw [hsplit, List.map_append] at hn
          have hn1 := (List.nodup_append.1 hn).1
          have hdisj := (List.nodup_append.1 hn).2.2
          have hex : ∀ (l : List (Txt × Arg V)), (∀ k ∈ l.map (·.1), k ∈ a.params.map (·.1)) →
              ∀ p ∈ ex, p.1 ∉ l.map (·.1) := by
            intro l hl p hp hm
            exact hdisj _ (hl _ hm) _ (List.mem_map_of_mem hp) rfl
          have henv : ∀ k ∈ env.map (·.1), k ∈ a.params.map (·.1) := by rw [hkeys]; exact fun _ h => h
          have hlook := lookup_self env (by rw [hkeys]; exact hn1)
          have hargs : a.forward.mapM (localVal env) = .ok env := by
            have : a.forward = env.map fun x => (x.1, x.1) := by
              have e1 : (env.map fun x => (x.1, x.1)) = (env.map (·.1)).map fun k => (k, k) := by simp
              have e2 : (a.params.map fun p => (p.1, p.1)) = (a.params.map (·.1)).map fun k => (k, k) := by simp
              rw [hf, e1, e2, hkeys]
            rw [this]
            exact mapM_locals env env hlook
          simp only [hargs] at hr
          have hb2 : bind a.clsParams [] env = .ok (env ++ defaults ex) := by
            simp only [bind]
            rw [if_neg (by simp), if_neg, if_neg, hsplit, fill_append env a.params ex [] (by simp) hd (hex _ henv),
              fill_self env env a.params hkeys hlook]
            · rfl
            · rw [hkeys]; simpa using hn1
            · push_neg
              intro k hk'
              rw [hsplit, List.map_append]
              exact List.mem_append_left _ (henv k hk')
          simp only [hb2] at hr
          cases hr
          simp only [construct, bind]
          rw [if_neg, if_neg, if_neg, hsplit, fill_append _ a.params ex _ hl hd (hex _ hk), hb]
          · rfl
          · push_neg; exact hkn
          · push_neg
            intro k hk'
            rw [hsplit, List.map_append]
            exact List.mem_append_left _ (hk k hk')
          · rw [hsplit, List.length_append]; omega

theorem call_error {V : Type} (a : Alias) (h : a.Faithful) (hx : a.params = a.clsParams) (pos : List V)
    (kw : List (Txt × V)) (e : PyErr) (hr : a.call pos kw = .error e) : construct a pos kw = .error e := by
  cases hb : bind a.params (user pos kw).1 (user pos kw).2 with
  | error e' =>
    simp only [Alias.call, hb] at hr
    simp only [construct, ← hx, hb]
    exact hr
  | ok env =>
    exfalso
    have hc : construct a pos kw = .ok (a.cls, env) := by simp only [construct, ← hx, hb]; rfl
    obtain ⟨hp, hf, hn, hd⟩ := h
    have hb' := hb
    simp only [bind] at hb
    split at hb
    · cases hb
    · split at hb
      · cases hb
      · split at hb
        · cases hb
        · have hkeys := fill_keys _ _ _ _ hb
          rw [← hx] at hn
          have hlook := lookup_self env (by rw [hkeys]; exact hn)
          have hargs : a.forward.mapM (localVal env) = .ok env := by
            have : a.forward = env.map fun x => (x.1, x.1) := by
              have e1 : (env.map fun x => (x.1, x.1)) = (env.map (·.1)).map fun k => (k, k) := by simp
              have e2 : (a.params.map fun p => (p.1, p.1)) = (a.params.map (·.1)).map fun k => (k, k) := by simp
              rw [hf, e1, e2, hkeys]
            rw [this]
            exact mapM_locals env env hlook
          have hb2 : bind a.clsParams [] env = .ok env := by
            simp only [bind]
            rw [if_neg (by simp), if_neg, if_neg, ← hx, fill_self env env a.params hkeys hlook]
            · rw [hkeys]; simpa using hn
            · push_neg
              rw [hkeys, hx]
              exact fun _ h => h
          simp only [Alias.call, hb', hargs, hb2] at hr
          cases hr

/-- `r` is the class `a` stands for, with every argument of the call `(pos, kw)` bound to the
parameter it was meant for and every other parameter at the default of the class. -/
structure Meant {V : Type} (a : Alias) (pos : List V) (kw : List (Txt × V)) (r : Txt × List (Txt × Arg V)) :
    Prop where
  cls : r.1 = a.cls
  names : r.2.map (·.1) = a.clsParams.map (·.1)
  positional : ∀ (i : Nat) (v : V), pos[i]? = some v → (r.2[i]?).map (·.2) = some (.given v)
  keyword : ∀ k v, (k, v) ∈ kw → (k, .given v) ∈ r.2
  given : ∀ k v, (k, .given v) ∈ r.2 → v ∈ pos ∨ (k, v) ∈ kw
  rest : ∀ k e, (k, .dflt e) ∈ r.2 → (k, some e) ∈ a.clsParams

theorem fill_cons {V : Type} (kw : List (Txt × Arg V)) (p : Txt) (d : Option Txt) (ps : List (Txt × Option Txt))
    (pos : List (Arg V)) (env : List (Txt × Arg V)) (h : fill kw ((p, d) :: ps) pos = .ok env) :
    ∃ v env', env = (p, v) :: env' ∧ fill kw ps pos.tail = .ok env' ∧
      ((pos.head? = some v ∧ p ∉ kw.map (·.1)) ∨ (pos = [] ∧ kw.lookup p = some v) ∨
        (pos = [] ∧ kw.lookup p = none ∧ ∃ e, d = some e ∧ v = .dflt e)) := by
  cases pos with
  | cons v pos =>
    simp only [fill] at h
    split at h
    · cases h
    · rename_i hp
      cases hf : fill kw ps pos with
      | error e => rw [hf] at h; cases h
      | ok e => rw [hf] at h; cases h; exact ⟨v, e, rfl, hf, .inl ⟨rfl, hp⟩⟩
  | nil =>
    simp only [fill] at h
    cases hl : kw.lookup p with
    | some v =>
      rw [hl] at h
      cases hf : fill kw ps [] with
      | error e => rw [hf] at h; cases h
      | ok e => rw [hf] at h; cases h; exact ⟨v, e, rfl, hf, .inr (.inl ⟨rfl, rfl⟩)⟩
    | none =>
      rw [hl] at h
      cases d with
      | none => cases h
      | some dd =>
        cases hf : fill kw ps [] with
        | error e => simp only [hf] at h; cases h
        | ok e => simp only [hf] at h; cases h; exact ⟨.dflt dd, e, rfl, hf, .inr (.inr ⟨rfl, rfl, dd, rfl, rfl⟩)⟩

theorem fill_pos {V : Type} (kw : List (Txt × Arg V)) (ps : List (Txt × Option Txt)) (pos : List (Arg V))
    (env : List (Txt × Arg V)) (h : fill kw ps pos = .ok env) (hl : pos.length ≤ ps.length) (i : Nat) (v : Arg V)
    (hi : pos[i]? = some v) : (env[i]?).map (·.2) = some v := by
  induction ps generalizing pos env i with
  | nil =>
    have : pos = [] := by simpa using hl
    subst this; simp at hi
  | cons q ps ih =>
    obtain ⟨p, d⟩ := q
    obtain ⟨w, env', rfl, hf, hw⟩ := fill_cons kw p d ps pos env h
    cases pos with
    | nil => simp at hi
    | cons x pos =>
      cases i with
      | zero =>
        rcases hw with hw | hw | hw
        · simp only [List.head?_cons] at hw
          simp only [List.getElem?_cons_zero] at hi ⊢
          rw [← hi, hw.1]; rfl
        · exact absurd hw.1 (by simp)
        · exact absurd hw.1 (by simp)
      | succ i =>
        simp only [List.getElem?_cons_succ] at hi ⊢
        exact ih pos env' hf (by simpa using hl) i hi

theorem fill_kw {V : Type} (kw : List (Txt × Arg V)) (ps : List (Txt × Option Txt)) (pos : List (Arg V))
    (env : List (Txt × Arg V)) (h : fill kw ps pos = .ok env) (k : Txt) (v : Arg V) (hk : kw.lookup k = some v)
    (hm : k ∈ kw.map (·.1)) (hp : k ∈ ps.map (·.1)) : (k, v) ∈ env := by
  induction ps generalizing pos env with
  | nil => simp at hp
  | cons q ps ih =>
    obtain ⟨p, d⟩ := q
    obtain ⟨w, env', rfl, hf, hw⟩ := fill_cons kw p d ps pos env h
    by_cases e : p = k
    · subst e
      rcases hw with hw | hw | hw
      · exact absurd hm hw.2
      · rw [hk] at hw
        rw [Option.some.injEq] at hw
        rw [hw.2]; simp
      · rw [hk] at hw; exact absurd hw.2.1 (by simp)
    · refine List.mem_cons_of_mem _ (ih _ env' hf ?_)
      simp only [List.map_cons, List.mem_cons] at hp
      rcases hp with hp | hp
      · exact absurd hp.symm e
      · exact hp

theorem fill_from {V : Type} (kw : List (Txt × Arg V)) (ps : List (Txt × Option Txt)) (pos : List (Arg V))
    (env : List (Txt × Arg V)) (h : fill kw ps pos = .ok env) (k : Txt) (v : Arg V) (hv : (k, v) ∈ env) :
    v ∈ pos ∨ kw.lookup k = some v ∨ ∃ e, v = .dflt e ∧ (k, some e) ∈ ps := by
  induction ps generalizing pos env with
  | nil => simp only [fill] at h; cases h; simp at hv
  | cons q ps ih =>
    obtain ⟨p, d⟩ := q
    obtain ⟨w, env', rfl, hf, hw⟩ := fill_cons kw p d ps pos env h
    rcases List.mem_cons.1 hv with e | hv
    · rw [Prod.mk.injEq] at e
      obtain ⟨rfl, rfl⟩ := e
      rcases hw with hw | hw | ⟨_, _, e, rfl, rfl⟩
      · exact .inl (List.mem_of_mem_head? hw.1)
      · exact .inr (.inl hw.2)
      · exact .inr (.inr ⟨e, rfl, by simp⟩)
    · rcases ih _ env' hf hv with h1 | h1 | ⟨e, h1, h2⟩
      · exact .inl (List.mem_of_mem_tail h1)
      · exact .inr (.inl h1)
      · exact .inr (.inr ⟨e, h1, by simp [h2]⟩)

theorem construct_meant {V : Type} (a : Alias) (pos : List V) (kw : List (Txt × V))
    (r : Txt × List (Txt × Arg V)) (hr : construct a pos kw = .ok r) : Meant a pos kw r := by
  simp only [construct] at hr
  cases hb : bind a.clsParams (user pos kw).1 (user pos kw).2 with
  | error e => rw [hb] at hr; cases hr
  | ok env =>
    rw [hb] at hr
    cases hr
    simp only [bind] at hb
    split at hb
    · cases hb
    · rename_i hl
      split at hb
      · cases hb
      · rename_i hk
        split at hb
        · cases hb
        · rename_i hn
          push_neg at hk hn hl
          have hlook := lookup_self (user pos kw).2 hn
          have hmem : ∀ x : Txt × V, x ∈ kw → (x.1, Arg.given x.2) ∈ (user pos kw).2 := fun x hx =>
            List.mem_map.2 ⟨x, hx, rfl⟩
          refine ⟨rfl, fill_keys _ _ _ _ hb, ?_, ?_, ?_, ?_⟩
          · intro i v hv
            exact fill_pos _ _ _ _ hb hl i (.given v) (by simp [user, hv])
          · intro k v hv
            have h1 := hmem (k, v) hv
            exact fill_kw _ _ _ _ hb k _ (hlook _ h1) (List.mem_map_of_mem h1) (hk _ (List.mem_map_of_mem h1))
          · intro k v hv
            rcases fill_from _ _ _ _ hb k _ hv with h1 | h1 | ⟨e, h1, _⟩
            · simp only [user, List.mem_map, Arg.given.injEq, exists_eq_right] at h1
              exact .inl h1
            · have := mem_of_lookup h1
              simp only [user, List.mem_map, Prod.mk.injEq, Arg.given.injEq] at this
              obtain ⟨x, hx, e1, e2⟩ := this
              exact .inr (by rw [← e1, ← e2]; exact hx)
            · cases h1
          · intro k e hv
            rcases fill_from _ _ _ _ hb k _ hv with h1 | h1 | ⟨e', h1, h2⟩
            · simp [user] at h1
            · have := mem_of_lookup h1
              simp [user] at this
            · cases h1; exact h2

theorem table_faithful : ∀ a ∈ table, a.name ≠ batchIncremental.name → a.name ≠ instanceWindow.name → a.Faithful := by
  decide +kernel

theorem table_same : ∀ a ∈ table, a.name ≠ batchIncremental.name → a.name ≠ instanceWindow.name →
    a.name ≠ knn.name → a.name ≠ knnAdwin.name → a.params = a.clsParams := by
  decide +kernel

/-- C267 (partial): apart from `BatchIncremental` and `InstanceWindow`, a call of a former name that
is accepted gives what the same call of the class gives: the class with every argument bound to the
parameter it was meant for and the remaining parameters at the defaults of the class. Apart from
`KNN` and `KNNAdwin`, which do not know the newer parameter `metric`, the calls accepted are the
same, and a call refused is refused with the same exception. -/
theorem C267_former_names_partial {V : Type} (a : Alias) (ha : a ∈ table) (h1 : a.name ≠ cs!"BatchIncremental")
    (h2 : a.name ≠ cs!"InstanceWindow") (pos : List V) (kw : List (Txt × V)) :
    (∀ r, a.call pos kw = .ok r → construct a pos kw = .ok r ∧ Meant a pos kw r) ∧
    (a.name ≠ cs!"KNN" → a.name ≠ cs!"KNNAdwin" → a.call pos kw = construct a pos kw) := by
  have hf := table_faithful a ha h1 h2
  refine ⟨fun r hr => ?_, fun h3 h4 => ?_⟩
  · have := call_faithful a hf pos kw r hr
    exact ⟨this, construct_meant a pos kw r this⟩
  · have hx := table_same a ha h1 h2 h3 h4
    cases hc : a.call pos kw with
    | ok r => exact (call_faithful a hf pos kw r hc).symm
    | error e => exact (call_error a hf hx pos kw e hc).symm

/-- C267 (violated): `BatchIncremental` passes an argument `nominal_attributes` that
`BatchIncrementalClassifier` does not have: every call raises. -/
theorem C267_batch_incremental_violated {V : Type} (pos : List V) (kw : List (Txt × V)) :
    batchIncremental.call pos kw = .error .typeError := by
  cases hb : bind batchIncremental.params (user pos kw).1 (user pos kw).2 with
  | error e => simp only [Alias.call, hb, bind_error _ _ _ _ hb]
  | ok env =>
    have hk : env.map (·.1) = [cs!"nominal_attributes"] := by
      simp only [bind] at hb
      split at hb
      · cases hb
      · split at hb
        · cases hb
        · split at hb
          · cases hb
          · exact fill_keys _ _ _ _ hb
    obtain ⟨x, rfl⟩ : ∃ v, env = [(cs!"nominal_attributes", v)] := by
      match env, hk with
      | [(k, v)], hk =>
        simp only [List.map_cons, List.map_nil, List.cons.injEq, and_true] at hk
        exact ⟨v, by rw [hk]⟩
    have : bind batchIncremental.clsParams [] [(cs!"nominal_attributes", x)] = .error .typeError := by
      simp only [bind]
      rw [if_neg (by simp), if_pos]
      simp only [List.map_cons, List.map_nil, List.mem_singleton, forall_eq]
      decide +kernel
    simp only [Alias.call, hb]
    have h2 : batchIncremental.forward.mapM (localVal [(cs!"nominal_attributes", x)]) =
        .ok [(cs!"nominal_attributes", x)] := by
      rfl
    rw [h2]
    simp only [this]

/-- C267 (violated): `InstanceWindow` is a function with a parameter `self`: every call with keyword
arguments only, as its constructor took them, raises. -/
theorem C267_instance_window_violated {V : Type} (kw : List (Txt × V)) (h : cs!"self" ∉ kw.map (·.1)) :
    instanceWindow.call [] kw = .error .typeError := by
  cases hb : bind instanceWindow.params (user ([] : List V) kw).1 (user [] kw).2 with
  | error e => simp only [Alias.call, hb, bind_error _ _ _ _ hb]
  | ok env =>
    exfalso
    simp only [bind] at hb
    split at hb
    · cases hb
    · split at hb
      · cases hb
      · split at hb
        · cases hb
        · obtain ⟨v, env', _, _, hw⟩ := fill_cons _ _ _ _ _ _ hb
          rcases hw with hw | hw | hw
          · simp [user] at hw
          · have := mem_of_lookup hw.2
            simp only [user, List.mem_map, Prod.mk.injEq] at this
            obtain ⟨x, hx, e, _⟩ := this
            exact h (List.mem_map.2 ⟨x, hx, e⟩)
          · obtain ⟨_, _, e, he, _⟩ := hw
            cases he

/-- Non-trivial cases: `KNN(8, leaf_size=40)` is accepted, `KNN(metric=3)` is not although
`KNNClassifier(metric=3)` is. -/
example : (knn.call [8] [(cs!"leaf_size", 40)]).toOption =
    some (cs!"KNNClassifier", [(cs!"n_neighbors", .given 8), (cs!"max_window_size", .dflt cs!"1000"),
      (cs!"leaf_size", .given 40), (cs!"metric", .dflt cs!"'euclidean'")]) := by
  decide +kernel

example : (knn.call [] [(cs!"metric", 3)]).toOption = none ∧
    (construct knn [] [(cs!"metric", 3)]).toOption.isSome := by
  decide +kernel

example : knn ∈ table ∧ knn.name ≠ cs!"BatchIncremental" ∧ knn.name ≠ cs!"InstanceWindow" ∧
    hoeffdingTree ∈ table ∧ hoeffdingTree.name ≠ cs!"KNN" := by
  refine ⟨?_, by decide +kernel, by decide +kernel, ?_, by decide +kernel⟩ <;> simp [table]

end Verif.Renamed
