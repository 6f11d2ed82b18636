import sys; sys.path.insert(0,'/verif/tools')
from crcparse import V
import re
out=['import Verif.Model.Crc','','/-!','# The variants of Src/crc/crc8_variants, Src/crc/crc16_variants and Src/crc/crc32_variants','','Generated from the C files: the tables and constants are copied literally.','-/','','namespace IMU.Crc','']
b=lambda x:'true' if x else 'false'
names={8:[],16:[],32:[]}
for v in V:
    w=v['w']; d=v['defs']; body=v['body']
    hx=lambda s:int(s.rstrip('U'),16)
    gr='reflect_output = REFLECTED_OUTPUT' in body; gx='final_xor = FINAL_XOR' in body
    init=hx(d[f'INITIAL_CRC{w}_VALUE'])
    fn=v['name']; rel=v['file'].replace('/repo/','')
    raw=open(v['file']).read().split('\n')
    t0=next(i for i,l in enumerate(raw) if 'crc_table[256]' in l)+1
    t1=next(i for i,l in enumerate(raw) if i>t0 and '};' in l)+1
    assert len(v['tab'])==256
    rows=[]
    per=16 if w<32 else 8
    for i in range(0,256,per):
        rows.append('  '+', '.join(('0x%0'+str(w//4)+'X')%x for x in v['tab'][i:i+per]))
    out.append(f'/-- {rel}:{t0}-{t1} `crc_table`. -/')
    out.append(f'def table_{fn} : List Nat := [\n'+',\n'.join(rows)+']\n')
    d0=next(i for i,l in enumerate(raw) if l.startswith('#define'))+1
    out.append(f'/-- {rel}:{d0}-{v["l1"]} `{fn}`. -/')
    out.append(f'def {fn} : Variant {w} where\n  name := "{fn}"\n  crc_table := table_{fn}.map (BitVec.ofNat {w})\n  initial := 0x{init:X}#{w}\n  final_xor_value := 0x{hx(d["FINAL_XOR_VALUE"]):X}#{w}\n  reflected_output := {d["REFLECTED_OUTPUT"]}\n  reflected_input := {d["REFLECTED_INPUT"]}\n  final_xor := {d["FINAL_XOR"]}\n  gate_reflect := {b(gr)}\n  gate_xor := {b(gx)}\n')
    names[w].append(fn)
for w in names:
    out.append(f'/-- The functions of Src/crc/crc{w}_variants. -/\ndef variants{w} : List (Variant {w}) := [\n  {", ".join(names[w])}]\n')
out.append('end IMU.Crc')
import textwrap
o=[]
for l in '\n'.join(out).split('\n'):
    o+= textwrap.wrap(l,115,initial_indent='',subsequent_indent='  ') if len(l)>118 else [l]
open('/verif/lean/Verif/Model/CrcVariants.lean','w').write('\n'.join(o)+'\n')
