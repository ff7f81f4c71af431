/-! # The constants of OpenFlow 1.3.5, openflow_desc.py:402-973, and finding them by name

Names are lists of characters.  A dict is its list of entries in the order of insertion. -/

namespace OFE.Consts

/-- A dict from names to numbers, or the entries of a literal as they are written. -/
abbrev Table := List (List Char × Nat)

/-- self.ofp_port_no, openflow_desc.py:401-411 -/
def ofpPortNo : Table := [
  ("OFPP_MAX".toList, 0xffffff00), ("OFPP_IN_PORT".toList, 0xfffffff8), ("OFPP_TABLE".toList, 0xfffffff9), ("OFPP_NORMAL".toList, 0xfffffffa),
  ("OFPP_FLOOD".toList, 0xfffffffb), ("OFPP_ALL".toList, 0xfffffffc), ("OFPP_CONTROLLER".toList, 0xfffffffd), ("OFPP_LOCAL".toList, 0xfffffffe),
  ("OFPP_ANY".toList, 0xffffffff)]

/-- self.ofp_type, openflow_desc.py:413-444 -/
def ofpType : Table := [
  ("OFPT_HELLO".toList, 0), ("OFPT_ERROR".toList, 1), ("OFPT_ECHO_REQUEST".toList, 2), ("OFPT_ECHO_REPLY".toList, 3),
  ("OFPT_EXPERIMENTER".toList, 4), ("OFPT_FEATURES_REQUEST".toList, 5), ("OFPT_FEATURES_REPLY".toList, 6), ("OFPT_GET_CONFIG_REQUEST".toList, 7),
  ("OFPT_GET_CONFIG_REPLY".toList, 8), ("OFPT_SET_CONFIG".toList, 9), ("OFPT_PACKET_IN".toList, 10), ("OFPT_FLOW_REMOVED".toList, 11),
  ("OFPT_PORT_STATUS".toList, 12), ("OFPT_PACKET_OUT".toList, 13), ("OFPT_FLOW_MOD".toList, 14), ("OFPT_GROUP_MOD".toList, 15),
  ("OFPT_PORT_MOD".toList, 16), ("OFPT_TABLE_MOD".toList, 17), ("OFPT_MULTIPART_REQUEST".toList, 18), ("OFPT_MULTIPART_REPLY".toList, 19),
  ("OFPT_BARRIER_REQUEST".toList, 20), ("OFPT_BARRIER_REPLY".toList, 21), ("OFPT_QUEUE_GET_CONFIG_REQUEST".toList, 22),
  ("OFPT_QUEUE_GET_CONFIG_REPLY".toList, 23), ("OFPT_ROLE_REQUEST".toList, 24), ("OFPT_ROLE_REPLY".toList, 25),
  ("OFPT_GET_ASYNC_REQUEST".toList, 26), ("OFPT_GET_ASYNC_REPLY".toList, 27), ("OFPT_SET_ASYNC".toList, 28), ("OFPT_METER_MOD".toList, 29)]

/-- self.ofp_hello_elem_type, openflow_desc.py:446-448 -/
def ofpHelloElemType : Table := [
  ("OFPHET_VERSIONBITMAP".toList, 1)]

/-- self.ofp_config_flags, openflow_desc.py:450-455 -/
def ofpConfigFlags : Table := [
  ("OFPC_FRAG_NORMAL".toList, 0), ("OFPC_FRAG_DROP".toList, 1 <<< 0), ("OFPC_FRAG_REASM".toList, 1 <<< 1), ("OFPC_FRAG_MASK".toList, 3)]

/-- self.ofp_table_config, openflow_desc.py:457-459 -/
def ofpTableConfig : Table := [
  ("OFPTC_DEPRECATED_MASK".toList, 3)]

/-- self.ofp_table, openflow_desc.py:461-464 -/
def ofpTable : Table := [
  ("OFPTT_MAX".toList, 0xfe), ("OFPTT_ALL".toList, 0xff)]

/-- self.ofp_capabilities, openflow_desc.py:466-474 -/
def ofpCapabilities : Table := [
  ("OFPC_FLOW_STATS".toList, 1 <<< 0), ("OFPC_TABLE_STATS".toList, 1 <<< 1), ("OFPC_PORT_STATS".toList, 1 <<< 2),
  ("OFPC_GROUP_STATS".toList, 1 <<< 3), ("OFPC_IP_REASM".toList, 1 <<< 5), ("OFPC_QUEUE_STATS".toList, 1 <<< 6),
  ("OFPC_PORT_BLOCKED".toList, 1 <<< 8)]

/-- self.ofp_port_config, openflow_desc.py:476-481 -/
def ofpPortConfig : Table := [
  ("OFPPC_PORT_DOWN".toList, 1 <<< 0), ("OFPPC_NO_RECV".toList, 1 <<< 2), ("OFPPC_NO_FWD".toList, 1 <<< 5), ("OFPPC_NO_PACKET_IN".toList, 1 <<< 6)]

/-- self.ofp_port_state, openflow_desc.py:483-487 -/
def ofpPortState : Table := [
  ("OFPPS_LINK_DOWN".toList, 1 <<< 0), ("OFPPS_BLOCKED".toList, 1 <<< 1), ("OFPPS_LIVE".toList, 1 <<< 2)]

/-- self.ofp_port_features, openflow_desc.py:489-506 -/
def ofpPortFeatures : Table := [
  ("OFPPF_10MB_HD".toList, 1 <<< 0), ("OFPPF_10MB_FD".toList, 1 <<< 1), ("OFPPF_100MB_HD".toList, 1 <<< 2), ("OFPPF_100MB_FD".toList, 1 <<< 3),
  ("OFPPF_1GB_HD".toList, 1 <<< 4), ("OFPPF_1GB_FD".toList, 1 <<< 5), ("OFPPF_10GB_FD".toList, 1 <<< 6), ("OFPPF_40GB_FD".toList, 1 <<< 7),
  ("OFPPF_100GB_FD".toList, 1 <<< 8), ("OFPPF_1TB_FD".toList, 1 <<< 9), ("OFPPF_OTHER".toList, 1 <<< 10), ("OFPPF_COPPER".toList, 1 <<< 11),
  ("OFPPF_FIBER".toList, 1 <<< 12), ("OFPPF_AUTONEG".toList, 1 <<< 13), ("OFPPF_PAUSE".toList, 1 <<< 14), ("OFPPF_PAUSE_ASYM".toList, 1 <<< 15)]

/-- self.ofp_match_type, openflow_desc.py:508-511 -/
def ofpMatchType : Table := [
  ("OFPMT_STANDARD".toList, 0), ("OFPMT_OXM".toList, 1)]

/-- self.ofp_port_reason, openflow_desc.py:513-517 -/
def ofpPortReason : Table := [
  ("OFPPR_ADD".toList, 0), ("OFPPR_DELETE".toList, 1), ("OFPPR_MODIFY".toList, 2)]

/-- self.ofp_oxm_class, openflow_desc.py:519-524 -/
def ofpOxmClass : Table := [
  ("OFPXMC_NXM_0".toList, 0x0000), ("OFPXMC_NXM_1".toList, 0x0001), ("OFPXMC_OPENFLOW_BASIC".toList, 0x8000), ("OFPXMC_EXPERIMENTER".toList, 0xFFFF)]

/-- self.oxm_ofb_match_fields, openflow_desc.py:526-567 -/
def oxmOfbMatchFields : Table := [
  ("OFPXMT_OFB_IN_PORT".toList, 0), ("OFPXMT_OFB_IN_PHY_PORT".toList, 1), ("OFPXMT_OFB_METADATA".toList, 2), ("OFPXMT_OFB_ETH_DST".toList, 3),
  ("OFPXMT_OFB_ETH_SRC".toList, 4), ("OFPXMT_OFB_ETH_TYPE".toList, 5), ("OFPXMT_OFB_VLAN_VID".toList, 6), ("OFPXMT_OFB_VLAN_PCP".toList, 7),
  ("OFPXMT_OFB_IP_DSCP".toList, 8), ("OFPXMT_OFB_IP_ECN".toList, 9), ("OFPXMT_OFB_IP_PROTO".toList, 10), ("OFPXMT_OFB_IPV4_SRC".toList, 11),
  ("OFPXMT_OFB_IPV4_DST".toList, 12), ("OFPXMT_OFB_TCP_SRC".toList, 13), ("OFPXMT_OFB_TCP_DST".toList, 14), ("OFPXMT_OFB_UDP_SRC".toList, 15),
  ("OFPXMT_OFB_UDP_DST".toList, 16), ("OFPXMT_OFB_SCTP_SRC".toList, 17), ("OFPXMT_OFB_SCTP_DST".toList, 18), ("OFPXMT_OFB_ICMPV4_TYPE".toList, 19),
  ("OFPXMT_OFB_ICMPV4_CODE".toList, 20), ("OFPXMT_OFB_ARP_OP".toList, 21), ("OFPXMT_OFB_ARP_SPA".toList, 22), ("OFPXMT_OFB_ARP_TPA".toList, 23),
  ("OFPXMT_OFB_ARP_SHA".toList, 24), ("OFPXMT_OFB_ARP_THA".toList, 25), ("OFPXMT_OFB_IPV6_SRC".toList, 26), ("OFPXMT_OFB_IPV6_DST".toList, 27),
  ("OFPXMT_OFB_IPV6_FLABEL".toList, 28), ("OFPXMT_OFB_ICMPV6_TYPE".toList, 29), ("OFPXMT_OFB_ICMPV6_CODE".toList, 30),
  ("OFPXMT_OFB_IPV6_ND_TARGET".toList, 31), ("OFPXMT_OFB_IPV6_ND_SLL".toList, 32), ("OFPXMT_OFB_IPV6_ND_TLL".toList, 33),
  ("OFPXMT_OFB_MPLS_LABEL".toList, 34), ("OFPXMT_OFB_MPLS_TC".toList, 35), ("OFPXMT_OFB_MPLS_BOS".toList, 36), ("OFPXMT_OFB_PBB_ISID".toList, 37),
  ("OFPXMT_OFB_TUNNEL_ID".toList, 38), ("OFPXMT_OFB_IPV6_EXTHDR".toList, 39)]

/-- self.ofp_vlan_id, openflow_desc.py:569-573 -/
def ofpVlanId : Table := [
  ("OFPVID_PRESENT".toList, 0x1000), ("OFPVID_NONE".toList, 0x0000), ("OFP_VLAN_NONE".toList, 0x0000)]

/-- self.ofp_ipv6exthdr_flags, openflow_desc.py:575-585 -/
def ofpIpv6exthdrFlags : Table := [
  ("OFPIEH_NONEXT".toList, 1 <<< 0), ("OFPIEH_ESP".toList, 1 <<< 1), ("OFPIEH_AUTH".toList, 1 <<< 2), ("OFPIEH_DEST".toList, 1 <<< 3),
  ("OFPIEH_FRAG".toList, 1 <<< 4), ("OFPIEH_ROUTER".toList, 1 <<< 5), ("OFPIEH_HOP".toList, 1 <<< 6), ("OFPIEH_UNREP".toList, 1 <<< 7),
  ("OFPIEH_UNSEQ".toList, 1 <<< 8)]

/-- self.ofp_action_type, openflow_desc.py:587-605 -/
def ofpActionType : Table := [
  ("OFPAT_OUTPUT".toList, 0), ("OFPAT_COPY_TTL_OUT".toList, 11), ("OFPAT_COPY_TTL_IN".toList, 12), ("OFPAT_SET_MPLS_TTL".toList, 15),
  ("OFPAT_DEC_MPLS_TTL".toList, 16), ("OFPAT_PUSH_VLAN".toList, 17), ("OFPAT_POP_VLAN".toList, 18), ("OFPAT_PUSH_MPLS".toList, 19),
  ("OFPAT_POP_MPLS".toList, 20), ("OFPAT_SET_QUEUE".toList, 21), ("OFPAT_GROUP".toList, 22), ("OFPAT_SET_NW_TTL".toList, 23),
  ("OFPAT_DEC_NW_TTL".toList, 24), ("OFPAT_SET_FIELD".toList, 25), ("OFPAT_PUSH_PBB".toList, 26), ("OFPAT_POP_PBB".toList, 27),
  ("OFPAT_EXPERIMENTER".toList, 0xffff)]

/-- self.ofp_controller_max_len, openflow_desc.py:607-610 -/
def ofpControllerMaxLen : Table := [
  ("OFPCML_MAX".toList, 0xffe5), ("OFPCML_NO_BUFFER".toList, 0xffff)]

/-- self.ofp_instruction_type, openflow_desc.py:612-620 -/
def ofpInstructionType : Table := [
  ("OFPIT_GOTO_TABLE".toList, 1), ("OFPIT_WRITE_METADATA".toList, 2), ("OFPIT_WRITE_ACTIONS".toList, 3), ("OFPIT_APPLY_ACTIONS".toList, 4),
  ("OFPIT_CLEAR_ACTIONS".toList, 5), ("OFPIT_METER".toList, 6), ("OFPIT_EXPERIMENTER".toList, 0xFFFF)]

/-- self.ofp_flow_mod_command, openflow_desc.py:622-628 -/
def ofpFlowModCommand : Table := [
  ("OFPFC_ADD".toList, 0), ("OFPFC_MODIFY".toList, 1), ("OFPFC_MODIFY_STRICT".toList, 2), ("OFPFC_DELETE".toList, 3),
  ("OFPFC_DELETE_STRICT".toList, 4)]

/-- self.ofp_flow_mod_flags, openflow_desc.py:630-636 -/
def ofpFlowModFlags : Table := [
  ("OFPFF_SEND_FLOW_REM".toList, 1 <<< 0), ("OFPFF_CHECK_OVERLAP".toList, 1 <<< 1), ("OFPFF_RESET_COUNTS".toList, 1 <<< 2),
  ("OFPFF_NO_PKT_COUNTS".toList, 1 <<< 3), ("OFPFF_NO_BYT_COUNTS".toList, 1 <<< 4)]

/-- self.ofp_group, openflow_desc.py:638-642 -/
def ofpGroup : Table := [
  ("OFPG_MAX".toList, 0xffffff00), ("OFPG_ALL".toList, 0xfffffffc), ("OFPG_ANY".toList, 0xffffffff)]

/-- self.ofp_group_mod_command, openflow_desc.py:644-648 -/
def ofpGroupModCommand : Table := [
  ("OFPGC_ADD".toList, 0), ("OFPGC_MODIFY".toList, 1), ("OFPGC_DELETE".toList, 2)]

/-- self.ofp_group_type, openflow_desc.py:650-655 -/
def ofpGroupType : Table := [
  ("OFPGT_ALL".toList, 0), ("OFPGT_SELECT".toList, 1), ("OFPGT_INDIRECT".toList, 2), ("OFPGT_FF".toList, 3)]

/-- self.ofp_packet_in_reason, openflow_desc.py:657-661 -/
def ofpPacketInReason : Table := [
  ("OFPR_NO_MATCH".toList, 0), ("OFPR_ACTION".toList, 1), ("OFPR_INVALID_TTL".toList, 2)]

/-- self.ofp_flow_removed_reason, openflow_desc.py:663-668 -/
def ofpFlowRemovedReason : Table := [
  ("OFPRR_IDLE_TIMEOUT".toList, 0), ("OFPRR_HARD_TIMEOUT".toList, 1), ("OFPRR_DELETE".toList, 2), ("OFPRR_GROUP_DELETE".toList, 3)]

/-- self.ofp_meter, openflow_desc.py:670-675 -/
def ofpMeter : Table := [
  ("OFPM_MAX".toList, 0xffff0000), ("OFPM_SLOWPATH".toList, 0xfffffffd), ("OFPM_CONTROLLER".toList, 0xfffffffe), ("OFPM_ALL".toList, 0xffffffff)]

/-- self.ofp_meter_band_type, openflow_desc.py:677-681 -/
def ofpMeterBandType : Table := [
  ("OFPMBT_DROP".toList, 1), ("OFPMBT_DSCP_REMARK".toList, 2), ("OFPMBT_EXPERIMENTER".toList, 0xFFFF)]

/-- self.ofp_meter_mod_command, openflow_desc.py:683-687 -/
def ofpMeterModCommand : Table := [
  ("OFPMC_ADD".toList, 0), ("OFPMC_MODIFY".toList, 1), ("OFPMC_DELETE".toList, 2)]

/-- self.ofp_meter_flags, openflow_desc.py:689-694 -/
def ofpMeterFlags : Table := [
  ("OFPMF_KBPS".toList, 1 <<< 0), ("OFPMF_PKTPS".toList, 1 <<< 1), ("OFPMF_BURST".toList, 1 <<< 2), ("OFPMF_STATS".toList, 1 <<< 3)]

/-- self.ofp_error_type, openflow_desc.py:696-712 -/
def ofpErrorType : Table := [
  ("OFPET_HELLO_FAILED".toList, 0), ("OFPET_BAD_REQUEST".toList, 1), ("OFPET_BAD_ACTION".toList, 2), ("OFPET_BAD_INSTRUCTION".toList, 3),
  ("OFPET_BAD_MATCH".toList, 4), ("OFPET_FLOW_MOD_FAILED".toList, 5), ("OFPET_GROUP_MOD_FAILED".toList, 6), ("OFPET_PORT_MOD_FAILED".toList, 7),
  ("OFPET_TABLE_MOD_FAILED".toList, 8), ("OFPET_QUEUE_OP_FAILED".toList, 9), ("OFPET_SWITCH_CONFIG_FAILED".toList, 10),
  ("OFPET_ROLE_REQUEST_FAILED".toList, 11), ("OFPET_METER_MOD_FAILED".toList, 12), ("OFPET_TABLE_FEATURES_FAILED".toList, 13),
  ("OFPET_EXPERIMENTER".toList, 0xffff)]

/-- self.ofp_hello_failed_code, openflow_desc.py:714-717 -/
def ofpHelloFailedCode : Table := [
  ("OFPHFC_INCOMPATIBLE".toList, 0), ("OFPHFC_EPERM".toList, 1)]

/-- self.ofp_bad_request_code, openflow_desc.py:719-734 -/
def ofpBadRequestCode : Table := [
  ("OFPBRC_BAD_VERSION".toList, 0), ("OFPBRC_BAD_TYPE".toList, 1), ("OFPBRC_BAD_MULTIPART".toList, 2), ("OFPBRC_BAD_EXPERIMENTER".toList, 3),
  ("OFPBRC_BAD_EXP_TYPE".toList, 4), ("OFPBRC_EPERM".toList, 5), ("OFPBRC_BAD_LEN".toList, 6), ("OFPBRC_BUFFER_EMPTY".toList, 7),
  ("OFPBRC_BUFFER_UNKNOWN".toList, 8), ("OFPBRC_BAD_TABLE_ID".toList, 9), ("OFPBRC_IS_SLAVE".toList, 10), ("OFPBRC_BAD_PORT".toList, 11),
  ("OFPBRC_BAD_PACKET".toList, 12), ("OFPBRC_MULTIPART_BUFFER_OVERFLOW".toList, 13)]

/-- self.ofp_bad_action_code, openflow_desc.py:736-753 -/
def ofpBadActionCode : Table := [
  ("OFPBAC_BAD_TYPE".toList, 0), ("OFPBAC_BAD_LEN".toList, 1), ("OFPBAC_BAD_EXPERIMENTER".toList, 2), ("OFPBAC_BAD_EXP_TYPE".toList, 3),
  ("OFPBAC_BAD_OUT_PORT".toList, 4), ("OFPBAC_BAD_ARGUMENT".toList, 5), ("OFPBAC_EPERM".toList, 6), ("OFPBAC_TOO_MANY".toList, 7),
  ("OFPBAC_BAD_QUEUE".toList, 8), ("OFPBAC_BAD_OUT_GROUP".toList, 9), ("OFPBAC_MATCH_INCONSISTENT".toList, 10),
  ("OFPBAC_UNSUPPORTED_ORDER".toList, 11), ("OFPBAC_BAD_TAG".toList, 12), ("OFPBAC_BAD_SET_TYPE".toList, 13), ("OFPBAC_BAD_SET_LEN".toList, 14),
  ("OFPBAC_BAD_SET_ARGUMENT".toList, 15)]

/-- self.ofp_bad_instruction_code, openflow_desc.py:755-765 -/
def ofpBadInstructionCode : Table := [
  ("OFPBIC_UNKNOWN_INST".toList, 0), ("OFPBIC_UNSUP_INST".toList, 1), ("OFPBIC_BAD_TABLE_ID".toList, 2), ("OFPBIC_UNSUP_METADATA".toList, 3),
  ("OFPBIC_UNSUP_METADATA_MASK".toList, 4), ("OFPBIC_BAD_EXPERIMENTER".toList, 5), ("OFPBIC_BAD_EXP_TYPE".toList, 6), ("OFPBIC_BAD_LEN".toList, 7),
  ("OFPBIC_EPERM".toList, 8)]

/-- self.ofp_bad_match_code, openflow_desc.py:767-780 -/
def ofpBadMatchCode : Table := [
  ("OFPBMC_BAD_TYPE".toList, 0), ("OFPBMC_BAD_LEN".toList, 1), ("OFPBMC_BAD_TAG".toList, 2), ("OFPBMC_BAD_DL_ADDR_MASK".toList, 3),
  ("OFPBMC_BAD_NW_ADDR_MASK".toList, 4), ("OFPBMC_BAD_WILDCARDS".toList, 5), ("OFPBMC_BAD_FIELD".toList, 6), ("OFPBMC_BAD_VALUE".toList, 7),
  ("OFPBMC_BAD_MASK".toList, 8), ("OFPBMC_BAD_PREREQ".toList, 9), ("OFPBMC_DUP_FIELD".toList, 10), ("OFPBMC_EPERM".toList, 11)]

/-- self.ofp_flow_mod_failed_code, openflow_desc.py:782-791 -/
def ofpFlowModFailedCode : Table := [
  ("OFPFMFC_UNKNOWN".toList, 0), ("OFPFMFC_TABLE_FULL".toList, 1), ("OFPFMFC_BAD_TABLE_ID".toList, 2), ("OFPFMFC_OVERLAP".toList, 3),
  ("OFPFMFC_EPERM".toList, 4), ("OFPFMFC_BAD_TIMEOUT".toList, 5), ("OFPFMFC_BAD_COMMAND".toList, 6), ("OFPFMFC_BAD_FLAGS".toList, 7)]

/-- self.ofp_group_mod_failed_code, openflow_desc.py:793-809 -/
def ofpGroupModFailedCode : Table := [
  ("OFPGMFC_GROUP_EXISTS".toList, 0), ("OFPGMFC_INVALID_GROUP".toList, 1), ("OFPGMFC_WEIGHT_UNSUPPORTED".toList, 2),
  ("OFPGMFC_OUT_OF_GROUPS".toList, 3), ("OFPGMFC_OUT_OF_BUCKETS".toList, 4), ("OFPGMFC_CHAINING_UNSUPPORTED".toList, 5),
  ("OFPGMFC_WATCH_UNSUPPORTED".toList, 6), ("OFPGMFC_LOOP".toList, 7), ("OFPGMFC_UNKNOWN_GROUP".toList, 8), ("OFPGMFC_CHAINED_GROUP".toList, 9),
  ("OFPGMFC_BAD_TYPE".toList, 10), ("OFPGMFC_BAD_COMMAND".toList, 11), ("OFPGMFC_BAD_BUCKET".toList, 12), ("OFPGMFC_BAD_WATCH".toList, 13),
  ("OFPGMFC_EPERM".toList, 14)]

/-- self.ofp_port_mod_failed_code, openflow_desc.py:811-817 -/
def ofpPortModFailedCode : Table := [
  ("OFPPMFC_BAD_PORT".toList, 0), ("OFPPMFC_BAD_HW_ADDR".toList, 1), ("OFPPMFC_BAD_CONFIG".toList, 2), ("OFPPMFC_BAD_ADVERTISE".toList, 3),
  ("OFPPMFC_EPERM".toList, 4)]

/-- self.ofp_table_mod_failed_code, openflow_desc.py:819-823 -/
def ofpTableModFailedCode : Table := [
  ("OFPTMFC_BAD_TABLE".toList, 0), ("OFPTMFC_BAD_CONFIG".toList, 1), ("OFPTMFC_EPERM".toList, 2)]

/-- self.ofp_queue_op_failed_code, openflow_desc.py:825-829 -/
def ofpQueueOpFailedCode : Table := [
  ("OFPQOFC_BAD_PORT".toList, 0), ("OFPQOFC_BAD_QUEUE".toList, 1), ("OFPQOFC_EPERM".toList, 2)]

/-- self.ofp_switch_config_failed_code, openflow_desc.py:831-835 -/
def ofpSwitchConfigFailedCode : Table := [
  ("OFPSCFC_BAD_FLAGS".toList, 0), ("OFPSCFC_BAD_LEN".toList, 1), ("OFPSCFC_EPERM".toList, 2)]

/-- self.ofp_role_request_failed_code, openflow_desc.py:837-841 -/
def ofpRoleRequestFailedCode : Table := [
  ("OFPRRFC_STALE".toList, 0), ("OFPRRFC_UNSUP".toList, 1), ("OFPRRFC_BAD_ROLE".toList, 2)]

/-- self.ofp_meter_mod_failed_code, openflow_desc.py:843-856 -/
def ofpMeterModFailedCode : Table := [
  ("OFPMMFC_UNKNOWN".toList, 0), ("OFPMMFC_METER_EXISTS".toList, 1), ("OFPMMFC_INVALID_METER".toList, 2), ("OFPMMFC_UNKNOWN_METER".toList, 3),
  ("OFPMMFC_BAD_COMMAND".toList, 4), ("OFPMMFC_BAD_FLAGS".toList, 5), ("OFPMMFC_BAD_RATE".toList, 6), ("OFPMMFC_BAD_BURST".toList, 7),
  ("OFPMMFC_BAD_BAND".toList, 8), ("OFPMMFC_BAD_BAND_VALUE".toList, 9), ("OFPMMFC_OUT_OF_METERS".toList, 10), ("OFPMMFC_OUT_OF_BANDS".toList, 11)]

/-- self.ofp_multipart_request_flags, openflow_desc.py:858-860 -/
def ofpMultipartRequestFlags : Table := [
  ("OFPMPF_REQ_MORE".toList, 1)]

/-- self.ofp_multipart_reply_flags, openflow_desc.py:862-864 -/
def ofpMultipartReplyFlags : Table := [
  ("OFPMPF_REPLY_MORE".toList, 1)]

/-- self.ofp_table_features_failed_code, openflow_desc.py:866-873 -/
def ofpTableFeaturesFailedCode : Table := [
  ("OFPTFFC_BAD_TABLE".toList, 0), ("OFPTFFC_BAD_METADATA".toList, 1), ("OFPTFFC_BAD_TYPE".toList, 2), ("OFPTFFC_BAD_LEN".toList, 3),
  ("OFPTFFC_BAD_ARGUMENT".toList, 4), ("OFPTFFC_EPERM".toList, 5)]

/-- self.ofp_multipart_type, openflow_desc.py:875-891 -/
def ofpMultipartType : Table := [
  ("OFPMP_DESC".toList, 0), ("OFPMP_FLOW".toList, 1), ("OFPMP_AGGREGATE".toList, 2), ("OFPMP_TABLE".toList, 3), ("OFPMP_PORT_STATS".toList, 4),
  ("OFPMP_QUEUE".toList, 5), ("OFPMP_GROUP".toList, 6), ("OFPMP_GROUP_DESC".toList, 7), ("OFPMP_GROUP_FEATURES".toList, 8),
  ("OFPMP_METER".toList, 9), ("OFPMP_METER_CONFIG".toList, 10), ("OFPMP_METER_FEATURES".toList, 11), ("OFPMP_TABLE_FEATURES".toList, 12),
  ("OFPMP_PORT_DESC".toList, 13), ("OFPMP_EXPERIMENTER".toList, 0xffff)]

/-- self.ofp_table_feature_prop_type, openflow_desc.py:893-910 -/
def ofpTableFeaturePropType : Table := [
  ("OFPTFPT_INSTRUCTIONS".toList, 0), ("OFPTFPT_INSTRUCTIONS_MISS".toList, 1), ("OFPTFPT_NEXT_TABLES".toList, 2),
  ("OFPTFPT_NEXT_TABLES_MISS".toList, 3), ("OFPTFPT_WRITE_ACTIONS".toList, 4), ("OFPTFPT_WRITE_ACTIONS_MISS".toList, 5),
  ("OFPTFPT_APPLY_ACTIONS".toList, 6), ("OFPTFPT_APPLY_ACTIONS_MISS".toList, 7), ("OFPTFPT_MATCH".toList, 8), ("OFPTFPT_WILDCARDS".toList, 10),
  ("OFPTFPT_WRITE_SETFIELD".toList, 12), ("OFPTFPT_WRITE_SETFIELD_MISS".toList, 13), ("OFPTFPT_APPLY_SETFIELD".toList, 14),
  ("OFPTFPT_APPLY_SETFIELD_MISS".toList, 15), ("OFPTFPT_EXPERIMENTER".toList, 0xFFFE), ("OFPTFPT_EXPERIMENTER_MISS".toList, 0xFFFF)]

/-- self.ofp_group_capabilities, openflow_desc.py:912-917 -/
def ofpGroupCapabilities : Table := [
  ("OFPGFC_SELECT_WEIGHT".toList, 1 <<< 0), ("OFPGFC_SELECT_LIVENESS".toList, 1 <<< 1), ("OFPGFC_CHAINING".toList, 1 <<< 2),
  ("OFPGFC_CHAINING_CHECKS".toList, 1 <<< 3)]

/-- self.ofp_queue_properties, openflow_desc.py:919-923 -/
def ofpQueueProperties : Table := [
  ("OFPQT_MIN_RATE".toList, 1), ("OFPQT_MAX_RATE".toList, 2), ("OFPQT_EXPERIMENTER".toList, 0xffff)]

/-- self.ofp_controller_role, openflow_desc.py:925-930 -/
def ofpControllerRole : Table := [
  ("OFPCR_ROLE_NOCHANGE".toList, 0), ("OFPCR_ROLE_EQUAL".toList, 1), ("OFPCR_ROLE_MASTER".toList, 2), ("OFPCR_ROLE_SLAVE".toList, 3)]

/-- self.ofp_top_level, openflow_desc.py:932-946 -/
def ofpTopLevel : Table := [
  ("OFP_VERSION".toList, 0x04), ("OFP_MAX_TABLE_NAME_LEN".toList, 32), ("OFP_MAX_PORT_NAME_LEN".toList, 16), ("OFP_TCP_PORT".toList, 6653),
  ("OFP_SSL_PORT".toList, 6653), ("OFP_ETH_ALEN".toList, 6), ("OFP_DEFAULT_MISS_SEND_LEN".toList, 128), ("OFPXMT_OFB_ALL".toList, (1 <<< 40) - 1),
  ("OFP_FLOW_PERMANENT".toList, 0), ("OFP_DEFAULT_PRIORITY".toList, 0x8000), ("OFPQ_ALL".toList, 0xffffffff), ("OFPQ_MIN_RATE_UNCFG".toList, 0xffff),
  ("OFPQ_MAX_RATE_UNCFG".toList, 0xffff)]

/-- Every table of constants that is defined, openflow_desc.py:401-946 -/
def allTables : List Table := [
  ofpPortNo, ofpType, ofpHelloElemType, ofpConfigFlags, ofpTableConfig, ofpTable, ofpCapabilities, ofpPortConfig, ofpPortState, ofpPortFeatures,
  ofpMatchType, ofpPortReason, ofpOxmClass, oxmOfbMatchFields, ofpVlanId, ofpIpv6exthdrFlags, ofpActionType, ofpControllerMaxLen, ofpInstructionType,
  ofpFlowModCommand, ofpFlowModFlags, ofpGroup, ofpGroupModCommand, ofpGroupType, ofpPacketInReason, ofpFlowRemovedReason, ofpMeter,
  ofpMeterBandType, ofpMeterModCommand, ofpMeterFlags, ofpErrorType, ofpHelloFailedCode, ofpBadRequestCode, ofpBadActionCode, ofpBadInstructionCode,
  ofpBadMatchCode, ofpFlowModFailedCode, ofpGroupModFailedCode, ofpPortModFailedCode, ofpTableModFailedCode, ofpQueueOpFailedCode,
  ofpSwitchConfigFailedCode, ofpRoleRequestFailedCode, ofpMeterModFailedCode, ofpMultipartRequestFlags, ofpMultipartReplyFlags,
  ofpTableFeaturesFailedCode, ofpMultipartType, ofpTableFeaturePropType, ofpGroupCapabilities, ofpQueueProperties, ofpControllerRole, ofpTopLevel]

/-- The tables that are merged, openflow_desc.py:948-972 -/
def mergedTables : List Table := [
  ofpPortNo, ofpType, ofpHelloElemType, ofpConfigFlags, ofpTable, ofpCapabilities, ofpPortConfig, ofpPortState, ofpPortFeatures, ofpPortReason,
  ofpMatchType, ofpOxmClass, oxmOfbMatchFields, ofpVlanId, ofpIpv6exthdrFlags, ofpActionType, ofpControllerMaxLen, ofpInstructionType,
  ofpFlowModCommand, ofpFlowModFlags, ofpGroup, ofpGroupModCommand, ofpGroupType, ofpPacketInReason, ofpFlowRemovedReason, ofpMeter,
  ofpMeterBandType, ofpMeterModCommand, ofpMeterFlags, ofpErrorType, ofpHelloFailedCode, ofpBadRequestCode, ofpBadActionCode, ofpBadInstructionCode,
  ofpBadMatchCode, ofpFlowModFailedCode, ofpGroupModFailedCode, ofpPortModFailedCode, ofpTableModFailedCode, ofpQueueOpFailedCode,
  ofpSwitchConfigFailedCode, ofpRoleRequestFailedCode, ofpMeterModFailedCode, ofpTableFeaturesFailedCode, ofpMultipartType, ofpMultipartRequestFlags,
  ofpMultipartReplyFlags, ofpTableFeaturePropType, ofpGroupCapabilities, ofpQueueProperties, ofpControllerRole, ofpTopLevel]

/-- `d[k] = v` -/
def Table.set (d : Table) (k : List Char) (v : Nat) : Table :=
  match d with
  | [] => [(k, v)]
  | (k', v') :: rest => if k' = k then (k, v) :: rest else (k', v') :: Table.set rest k v

/-- `x.update(y)` (openflow_desc.py:140), and the value of a dict literal `y` for empty `x`: later entries replace earlier ones of the same name. -/
def Table.update (x y : Table) : Table := y.foldl (fun d e => d.set e.1 e.2) x

/-- merge_dicts, openflow_desc.py:137-142; none if the assertion fails. -/
def mergeDicts (x y : Table) : Option Table :=
  let newLen := x.length + y.length
  let x := x.update y
  if newLen = x.length then some x else none

/-- `reduce(self.merge_dicts, ofp_all, {})`, openflow_desc.py:973, of literals -/
def mergeAll (tables : List Table) : Option Table := tables.foldl (fun x y => x.bind fun x => mergeDicts x (Table.update [] y)) (some [])

/-- self.ofp_all, openflow_desc.py:973 -/
def ofpAll : Option Table := mergeAll mergedTables

/-- `d.get(k)` -/
def Table.get (d : Table) (k : List Char) : Option Nat := (d.find? fun e => decide (e.1 = k)).map (·.2)

/-- What may be asked for: a string or another object. -/
inductive Query where
  | str (s : List Char)
  | other

/-- value_from_OFP, openflow_desc.py:122-134 -/
def valueFromOFP (all : Table) : Query → Option Nat
  | .other => none
  | .str s =>
    match all.get ("OFP".toList ++ s) with
    | some v => some v
    | none => all.get s

end OFE.Consts
