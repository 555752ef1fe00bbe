import Verif.Model.Classes

/-!
# Names of the gcode classes (`__class__.__name__`), written by `tools/mkclasses.py`
-/

namespace Pygcode

/-- The Python name of a class (gcodes.py:140-1357), as printed by `repr` (gcodes.py:185-196). -/
def Cls.pyName : Cls → String
  | .root => "GCode"
  | .definition => "GCodeDefinition"
  | .lineNumber => "GCodeLineNumber"
  | .programName => "GCodeProgramName"
  | .motion => "GCodeMotion"
  | .rapidMove => "GCodeRapidMove"
  | .linearMove => "GCodeLinearMove"
  | .arcMove => "GCodeArcMove"
  | .arcMoveCW => "GCodeArcMoveCW"
  | .arcMoveCCW => "GCodeArcMoveCCW"
  | .dwell => "GCodeDwell"
  | .cublcSpline => "GCodeCublcSpline"
  | .quadraticSpline => "GCodeQuadraticSpline"
  | .nurbs => "GCodeNURBS"
  | .nurbsEnd => "GCodeNURBSEnd"
  | .straightProbe => "GCodeStraightProbe"
  | .spindleSyncMotion => "GCodeSpindleSyncMotion"
  | .rigidTapping => "GCodeRigidTapping"
  | .cancelCannedCycle => "GCodeCancelCannedCycle"
  | .cannedCycle => "GCodeCannedCycle"
  | .drillingCycle => "GCodeDrillingCycle"
  | .drillingCycleDwell => "GCodeDrillingCycleDwell"
  | .drillingCyclePeck => "GCodeDrillingCyclePeck"
  | .drillingCycleChipBreaking => "GCodeDrillingCycleChipBreaking"
  | .boringCycleFeedOut => "GCodeBoringCycleFeedOut"
  | .boringCycleDwellFeedOut => "GCodeBoringCycleDwellFeedOut"
  | .threadingCycle => "GCodeThreadingCycle"
  | .distanceMode => "GCodeDistanceMode"
  | .absoluteDistanceMode => "GCodeAbsoluteDistanceMode"
  | .incrementalDistanceMode => "GCodeIncrementalDistanceMode"
  | .absoluteArcDistanceMode => "GCodeAbsoluteArcDistanceMode"
  | .incrementalArcDistanceMode => "GCodeIncrementalArcDistanceMode"
  | .latheDiameterMode => "GCodeLatheDiameterMode"
  | .latheRadiusMode => "GCodeLatheRadiusMode"
  | .feedRateMode => "GCodeFeedRateMode"
  | .inverseTimeMode => "GCodeInverseTimeMode"
  | .unitsPerMinuteMode => "GCodeUnitsPerMinuteMode"
  | .unitsPerRevolution => "GCodeUnitsPerRevolution"
  | .spindle => "GCodeSpindle"
  | .startSpindle => "GCodeStartSpindle"
  | .startSpindleCW => "GCodeStartSpindleCW"
  | .startSpindleCCW => "GCodeStartSpindleCCW"
  | .stopSpindle => "GCodeStopSpindle"
  | .orientSpindle => "GCodeOrientSpindle"
  | .spindleSpeedMode => "GCodeSpindleSpeedMode"
  | .spindleConstantSurfaceSpeedMode => "GCodeSpindleConstantSurfaceSpeedMode"
  | .spindleRPMMode => "GCodeSpindleRPMMode"
  | .coolant => "GCodeCoolant"
  | .coolantMistOn => "GCodeCoolantMistOn"
  | .coolantFloodOn => "GCodeCoolantFloodOn"
  | .coolantOff => "GCodeCoolantOff"
  | .toolLength => "GCodeToolLength"
  | .toolLengthOffset => "GCodeToolLengthOffset"
  | .dynamicToolLengthOffset => "GCodeDynamicToolLengthOffset"
  | .addToolLengthOffset => "GCodeAddToolLengthOffset"
  | .cancelToolLengthOffset => "GCodeCancelToolLengthOffset"
  | .programControl => "GCodeProgramControl"
  | .pauseProgram => "GCodePauseProgram"
  | .pauseProgramOptional => "GCodePauseProgramOptional"
  | .endProgram => "GCodeEndProgram"
  | .endProgramPalletShuttle => "GCodeEndProgramPalletShuttle"
  | .palletChangePause => "GCodePalletChangePause"
  | .unit => "GCodeUnit"
  | .useInches => "GCodeUseInches"
  | .useMillimeters => "GCodeUseMillimeters"
  | .planeSelect => "GCodePlaneSelect"
  | .selectXYPlane => "GCodeSelectXYPlane"
  | .selectZXPlane => "GCodeSelectZXPlane"
  | .selectYZPlane => "GCodeSelectYZPlane"
  | .selectUVPlane => "GCodeSelectUVPlane"
  | .selectWUPlane => "GCodeSelectWUPlane"
  | .selectVWPlane => "GCodeSelectVWPlane"
  | .cutterRadiusComp => "GCodeCutterRadiusComp"
  | .cutterRadiusCompOff => "GCodeCutterRadiusCompOff"
  | .cutterCompLeft => "GCodeCutterCompLeft"
  | .cutterCompRight => "GCodeCutterCompRight"
  | .dynamicCutterCompLeft => "GCodeDynamicCutterCompLeft"
  | .dynamicCutterCompRight => "GCodeDynamicCutterCompRight"
  | .pathControlMode => "GCodePathControlMode"
  | .exactPathMode => "GCodeExactPathMode"
  | .exactStopMode => "GCodeExactStopMode"
  | .pathBlendingMode => "GCodePathBlendingMode"
  | .cannedReturnMode => "GCodeCannedReturnMode"
  | .cannedCycleReturnPrevLevel => "GCodeCannedCycleReturnPrevLevel"
  | .cannedCycleReturnToR => "GCodeCannedCycleReturnToR"
  | .otherModal => "GCodeOtherModal"
  | .feedRate => "GCodeFeedRate"
  | .spindleSpeed => "GCodeSpindleSpeed"
  | .selectTool => "GCodeSelectTool"
  | .speedAndFeedOverrideOn => "GCodeSpeedAndFeedOverrideOn"
  | .speedAndFeedOverrideOff => "GCodeSpeedAndFeedOverrideOff"
  | .feedOverride => "GCodeFeedOverride"
  | .spindleSpeedOverride => "GCodeSpindleSpeedOverride"
  | .adaptiveFeed => "GCodeAdaptiveFeed"
  | .feedStop => "GCodeFeedStop"
  | .selectCoordinateSystem => "GCodeSelectCoordinateSystem"
  | .selectCoordinateSystem1 => "GCodeSelectCoordinateSystem1"
  | .selectCoordinateSystem2 => "GCodeSelectCoordinateSystem2"
  | .selectCoordinateSystem3 => "GCodeSelectCoordinateSystem3"
  | .selectCoordinateSystem4 => "GCodeSelectCoordinateSystem4"
  | .selectCoordinateSystem5 => "GCodeSelectCoordinateSystem5"
  | .selectCoordinateSystem6 => "GCodeSelectCoordinateSystem6"
  | .selectCoordinateSystem7 => "GCodeSelectCoordinateSystem7"
  | .selectCoordinateSystem8 => "GCodeSelectCoordinateSystem8"
  | .selectCoordinateSystem9 => "GCodeSelectCoordinateSystem9"
  | .io => "GCodeIO"
  | .digitalOutput => "GCodeDigitalOutput"
  | .digitalOutputOnSyncd => "GCodeDigitalOutputOnSyncd"
  | .digitalOutputOffSyncd => "GCodeDigitalOutputOffSyncd"
  | .digitalOutputOn => "GCodeDigitalOutputOn"
  | .digitalOutputOff => "GCodeDigitalOutputOff"
  | .waitOnInput => "GCodeWaitOnInput"
  | .analogOutput => "GCodeAnalogOutput"
  | .analogOutputSyncd => "GCodeAnalogOutputSyncd"
  | .analogOutputImmediate => "GCodeAnalogOutputImmediate"
  | .nonModal => "GCodeNonModal"
  | .toolChange => "GCodeToolChange"
  | .toolSetCurrent => "GCodeToolSetCurrent"
  | .setData => "GCodeSet"
  | .gotoPredefinedPosition => "GCodeGotoPredefinedPosition"
  | .setPredefinedPosition => "GCodeSetPredefinedPosition"
  | .moveInMachineCoords => "GCodeMoveInMachineCoords"
  | .coordSystemOffset => "GCodeCoordSystemOffset"
  | .resetCoordSystemOffset => "GCodeResetCoordSystemOffset"
  | .restoreCoordSystemOffset => "GCodeRestoreCoordSystemOffset"
  | .userDefined => "GCodeUserDefined"

end Pygcode
