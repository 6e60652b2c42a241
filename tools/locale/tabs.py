import re
src=open('/repo/pkg/locale/y.go').read()
def tab(n):
    m=re.search(r'var %s = \[\.\.\.\]int\{(.*?)\n\}'%n,src,re.S)
    return [int(x) for x in re.findall(r'-?\d+',m.group(1))]
T={n:tab(n) for n in ['yyExca','yyAct','yyPact','yyPgo','yyR1','yyR2','yyChk','yyDef','yyTok1','yyTok2','yyTok3']}
if __name__=='__main__':
    for k,v in T.items(): print(k,len(v))
